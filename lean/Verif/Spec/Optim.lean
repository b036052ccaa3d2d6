import Verif.Model.Param
import Mathlib.Data.EReal.Basic

/-!
# Reassembled parameters, rankings, penalties, pooled histograms
-/

namespace Verif.Spec
open Verif.Param

/-- `kvs` assigns every name once, in order; names with a user value keep it; the others receive the
candidate values in order. -/
structure Filled (names : List String) (user : String → Option ℝ) (cand : List ℝ)
    (kvs : List (String × ℝ)) : Prop where
  names : kvs.map Prod.fst = names
  kept : ∀ kv ∈ kvs, ∀ v, user kv.1 = some v → kv.2 = v
  free : (kvs.filter fun kv => (user kv.1).isNone).map Prod.snd = cand

/-- parameters documented as integers -/
def WholeParam : Family → String → Prop
  | .simple .betaBinomial, k => k = "n"
  | .simple .binomial, k => k = "n"
  | .simple .discreteUniform, _ => True
  | .simple .hyperGeometric, _ => True
  | .simple .ziBinomial, k => k = "n"
  | _, _ => False

/-- `i` is the first position of a smallest value of `l` below `⊤`; `none` entries are NaN -/
def FirstMin (l : List (Option EReal)) (i : ℕ) : Prop :=
  ∃ v, l[i]? = some (some v) ∧ v < ⊤ ∧ (∀ w, some w ∈ l → v ≤ w) ∧
    ∀ j < i, ∀ w, l[j]? = some (some w) → v < w

/-- the AICc of a model with `k` parameters and log-likelihood `ll` on `n` observations -/
noncomputable def aicc (n k : ℕ) (ll : ℝ) : ℝ :=
  2 * k - 2 * ll + 2 * k * (k + 1) / (n - k - 1)

/-- pooled weight of `x` before normalisation: over all answers, weight times chips times the
probability given to `x` -/
noncomputable def pooledAt (answers : List ((List (ℝ × ℝ)) × ℝ × ℝ)) (x : ℝ) : ℝ :=
  (answers.map fun a => ((a.1.filter fun xp => xp.1 = x).map Prod.snd).sum * a.2.1 * a.2.2).sum

end Verif.Spec
