import Verif.Model.VarGraph

/-!
# Dependencies between the variables of a model, said independently of the traversal
-/

namespace Verif.VarGraph
open Verif Verif.Ppl

/-- `a` is `v` or is needed to compute `v` -/
inductive Within (a : Var) : Var → Prop
  | refl : Within a a
  | step (k : Kind) (l : List Var) (u : Var) (hu : u ∈ l) (h : Within a u) : Within a (.node k l)

/-- `r` depends on `s`: the random variable `s` is needed to compute a parameter of `r` -/
def Needs (r s : FreeRV) : Prop :=
  ∃ p ∈ r.params, ∃ l, Within (.node (.rv s.id) l) p

/-- constants have no inputs -/
def NoConstInputs (v : Var) : Prop := ∀ l, Within (.node .const l) v → l = []

/-- a variable has no random parents -/
def TopLevel (m : Model) (r : FreeRV) : Prop := ∀ s ∈ m.free, ¬ Needs r s

/-- What PyMC guarantees: identities and names are distinct; variables are made after those they depend on; the value
variable of a transformed variable has the name of the variable with the name of the transformation, others have the
name of the variable itself; the initial point has the shape it says.  `suffix` names the transformations. -/
structure Proper (m : Model) (suffix : FreeRV → List Char) : Prop where
  ids : (m.free.map FreeRV.id).Nodup
  names : (m.free.map FreeRV.name).Nodup
  consts : ∀ r ∈ m.free, ∀ p ∈ r.params, NoConstInputs p
  created : ∀ (i j : ℕ) (r s : FreeRV), m.free[i]? = some r → m.free[j]? = some s → Needs r s → j < i
  value_name : ∀ r ∈ m.free, r.valueName =
    match r.transform with
    | none => r.name
    | some _ => r.name ++ ['_'] ++ suffix r ++ ['_', '_']
  sizes : ∀ r ∈ m.free, r.start.length = r.shape.prod

/-- names as they should be: no `_` in the names of the transformations, and no variable named like a transformed one -/
structure PlainNames (m : Model) (suffix : FreeRV → List Char) : Prop where
  suffixes : ∀ r ∈ m.free, r.transform ≠ none → '_' ∉ suffix r
  plain : ∀ r ∈ m.free, r.transform = none → ¬ (['_', '_'] <:+ r.name ∧ 3 ≤ r.name.count '_')

/-- one draw of a variable from one draw of its value variable -/
def FreeRV.back (r : FreeRV) (x : List ℝ) : List ℝ :=
  match r.transform with
  | none => x
  | some f => f x

/-- the number of columns before those of variable `k` -/
def offset (free : List FreeRV) (k : ℕ) : ℕ := ((free.take k).map fun r => r.start.length).sum

/-- the back-transformation keeps the number of values -/
def KeepsLength (r : FreeRV) : Prop :=
  ∀ f, r.transform = some f → ∀ x : List ℝ, x.length = r.start.length → (f x).length = r.start.length

/-- what an entry of `var_info` should say about its variable -/
def Describes (m : Model) (r : FreeRV) (e : Info) : Prop :=
  e.name = r.name ∧ e.shape = r.shape ∧ e.size = r.start.length ∧ e.transform = r.transform ∧ e.parents.Nodup ∧
    ∀ k : ℕ, k ∈ e.parents ↔ ∃ s, m.free[k]? = some s ∧ Needs r s

/-- no variable depends on one that has random parents, or that comes after one that has -/
def TwoLevels (m : Model) : Prop :=
  ∀ (i : ℕ) (r s : FreeRV), r ∈ m.free → m.free[i]? = some s → Needs r s →
    ∀ (j : ℕ) (t : FreeRV), j ≤ i → m.free[j]? = some t → TopLevel m t

end Verif.VarGraph
