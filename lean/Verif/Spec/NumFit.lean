import Verif.Model.NumFit
import Verif.Props.MlFit
import Verif.Spec.Optim

/-!
# Numerical fits: what an optimiser promises, and the distributions a fit chooses from
-/

namespace Verif.Spec
open Verif Verif.Param Verif.NumFit Verif.Props

/-- the point a strategy ends at when its questions are answered by the function `F` -/
noncomputable def answer (F : List ℝ → Except Err (List ℝ)) : Strategy → Except Err (List ℝ)
  | .stop x => .ok x
  | .ask x next => do
    let r ← F x
    answer F (next r)

/-- sum of squares -/
noncomputable def cost (r : List ℝ) : ℝ := (r.map (· ^ 2)).sum

/-- what the optimiser promises for the objective `F`: it ends at a point within the bounds at which the
sum of squares is smallest -/
def Finds (opt : Optimiser) (F : List ℝ → Except Err (List ℝ)) (init : List (Option ℝ)) (bounds : Box) :
    Prop :=
  ∃ s, opt init bounds = .ok s ∧ ∃ x r, answer F s = .ok x ∧ InBox bounds x ∧ F x = .ok r ∧
    ∀ y, InBox bounds y → ∀ r', F y = .ok r' → cost r ≤ cost r'

/-- `F` is the function from the free values to the residuals of the distribution the user would build
from these and the values already given (undefined for vectors of another length) -/
def IsObjective (f : Family) (names : List String) (user : String → Option ℝ)
    (residual : List (Option ℝ) → List ℝ) (F : List ℝ → Except Err (List ℝ)) : Prop :=
  (∀ cand kvs, Filled names user cand kvs →
    F cand = (construct f fun k => kvs.lookup k).map fun d => residual (law f d)) ∧
  ∀ cand, cand.length ≠ (names.filter fun k => (user k).isNone).length → F cand = .error .valueError

/-- the distributions a fit of `o` chooses from: those the user could build with a value for every
parameter of `o`, equal to the given ones, the others within the bounds -/
def Choice (f : Family) (o : Obj) (bounds : Box) (d : Obj) : Prop :=
  ∃ kw : Kw, construct f kw = .ok d ∧ (∀ k, (kw k).isSome ↔ k ∈ o.names) ∧
    (∀ k ∈ o.names, ∀ v, o.attr k = some v → kw k = some v) ∧
    InBox bounds ((o.names.filter fun k => (o.attr k).isNone).filterMap kw)

end Verif.Spec
