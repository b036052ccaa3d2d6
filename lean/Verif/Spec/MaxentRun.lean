import Verif.Model.MaxentRun
import Verif.Spec.NumFit

/-!
# The runs of maxent as functions of the starting point (C136)
-/

namespace Verif.Spec
open Verif Verif.Param Verif.Optim Verif.NumFit Verif.MaxentRun

/-- where a run ends when its questions are answered by the functions `E` (objective) and `C` (constraint) of the point -/
noncomputable def runOf (E : List ℝ → Except Err (Option EReal)) (C : List ℝ → Except Err (Option ℝ)) : Quest → Except Err Opt
  | .stop x v => .ok ⟨x, v⟩
  | .fail e => .error e
  | .objective x next => match E x with
    | .error e => .error e
    | .ok h => runOf E C (next h)
  | .constraint x next => match C x with
    | .error e => .error e
    | .ok b => runOf E C (next b)

/-- `E` and `C` are minus the entropy and the constraint of the distribution a new object would have at the point -/
structure Figures (s : Setup) (E : List ℝ → Except Err (Option EReal)) (C : List ℝ → Except Err (Option ℝ)) : Prop where
  entropy : ∀ x d, s.apply x blank = .ok d → E x = (s.entropy (law s.f d)).map fun h => h.map fun h => -h
  bound : ∀ x d, s.apply x blank = .ok d → C x = s.bound (law s.f d)
  fails : ∀ x e, s.apply x blank = .error e → E x = .error e ∧ C x = .error e

/-- the absolute value of the constraint; NaN, or a failure, is `none` -/
noncomputable def absOf (C : List ℝ → Except Err (Option ℝ)) (x : List ℝ) : Option ℝ :=
  match C x with
  | .ok b => b.map fun b => |b|
  | .error _ => none

/-- every coordinate is within the bounds -/
def Within (bounds : Box) (p : List EReal) : Prop :=
  ∀ (i : ℕ) (v : EReal) (b : EReal × EReal), p[i]? = some v → bounds[i]? = some b → b.1 ≤ v ∧ v ≤ b.2

/-- the runs completed before the first failure -/
def Completed (runs : List (Except Err Opt)) (done : List Opt) : Prop :=
  ∃ rest, runs = done.map .ok ++ rest ∧ ∀ r, rest.head? = some r → ∃ e, r = .error e

end Verif.Spec
