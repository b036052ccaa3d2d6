import Verif.Model.Rc

/-!
# What the settings and the configuration file should mean
-/

namespace Verif.Spec
open Verif Verif.Rc

/-- the documented settings and nothing else, with valid values; `nan` says whether a NaN probability is
tolerated -/
structure Settled (nan : Prop) (s : Store) : Prop where
  keys : ∀ k, (∃ v, s k = some v) ↔
    k = "stats.ci_kind" ∨ k = "stats.ci_prob" ∨ k = "plots.show_plot"
  kind : s "stats.ci_kind" = some (.str "eti") ∨ s "stats.ci_kind" = some (.str "hdi")
  prob : (∃ p : ℝ, 0 ≤ p ∧ p ≤ 1 ∧ s "stats.ci_prob" = some (.num (some (p : EReal)))) ∨
    (nan ∧ s "stats.ci_prob" = some (.num none))
  plot : ∃ b, s "plots.show_plot" = some (.bool b)

/-- the part of a line before the first `#` -/
def IsText (line t : List Char) : Prop :=
  '#' ∉ t ∧ (line = t ∨ ∃ r, line = t ++ '#' :: r)

/-- `m` is `l` without surrounding white space -/
def Trim (sp : Char → Bool) (l m : List Char) : Prop :=
  ∃ a b, l = a ++ m ++ b ∧ (∀ c ∈ a, sp c = true) ∧ (∀ c ∈ b, sp c = true) ∧
    (∀ c ∈ m.head?, sp c = false) ∧ (∀ c ∈ m.getLast?, sp c = false)

/-- nothing but white space and a comment -/
def Blank (sp : Char → Bool) (line : List Char) : Prop :=
  ∃ t, IsText line t ∧ ∀ c ∈ t, sp c = true

/-- `key : value  # comment` -/
def Entry (sp : Char → Bool) (line k v : List Char) : Prop :=
  ∃ a b, IsText line (a ++ ':' :: b) ∧ ':' ∉ a ∧ Trim sp a k ∧ Trim sp b v

/-- text that is there but has no colon -/
def Malformed (sp : Char → Bool) (line : List Char) : Prop :=
  ∃ t, IsText line t ∧ ':' ∉ t ∧ ∃ c ∈ t, sp c = false

/-- the text `v` is a valid value of setting `k` and stands for `w` -/
def Means (env : PyEnv) (k v : String) (w : PyVal) : Prop :=
  (k = "stats.ci_kind" ∧ (env.lower v = "eti" ∨ env.lower v = "hdi") ∧ w = .str (env.lower v)) ∨
  (k = "stats.ci_prob" ∧ ∃ x, env.parseFloat v = some x ∧ w = .num x ∧
    ∀ r, x = some r → 0 ≤ r ∧ r ≤ 1) ∨
  (k = "plots.show_plot" ∧ ((env.lower v = "true" ∧ w = .bool true) ∨
    (env.lower v = "false" ∧ w = .bool false)))

/-- what one line contributes -/
def LineMeans (env : PyEnv) (line : List Char) : Option (String × PyVal) → Prop
  | none => Blank env.isSpace line
  | some (k, w) => ∃ kc vc, Entry env.isSpace line kc vc ∧ k = String.ofList kc ∧
      Means env k (String.ofList vc) w

end Verif.Spec
