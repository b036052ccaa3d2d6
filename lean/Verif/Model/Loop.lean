import Mathlib.Data.Nat.Find
import Mathlib.Tactic.Common

/-!
# Python `while` loops

A loop is run with a bound on the number of iterations; `Ends` says that some bound suffices, which
is termination.  The result does not depend on the bound.
-/

namespace Verif.Loop
variable {σ : Type}

/-- `while cond: step`, at most `n` evaluations of the body -/
def run (cond : σ → Bool) (step : σ → σ) : ℕ → σ → Option σ
  | 0, s => if cond s then none else some s
  | n + 1, s => if cond s then run cond step n (step s) else some s

/-- the loop started in `s` terminates in `t` -/
def Ends (cond : σ → Bool) (step : σ → σ) (s t : σ) : Prop := ∃ n, run cond step n s = some t

end Verif.Loop
