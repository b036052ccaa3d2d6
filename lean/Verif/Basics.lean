import Mathlib.Analysis.SpecialFunctions.Pow.Real
import Mathlib.Tactic.FieldSimp
import Mathlib.Tactic.Linarith
import Mathlib.Tactic.Positivity
import Mathlib.Tactic.Ring

/-!
# Shared vocabulary of the models

Python exceptions, Python number helpers.  Floats are modelled as exact reals.
-/

namespace Verif

/-- Python exception classes that the modelled code can raise.  `complexResult` is not an exception:
it marks the points where Python arithmetic leaves the reals (`(-1.0) ** 0.5` is a complex number),
beyond which the model does not follow the code. -/
inductive Err
  | valueError | typeError | keyError | indexError | attributeError | zeroDivision | runtimeError
  | fileNotFound | overflow | nameError | complexResult
  deriving DecidableEq, Repr

/-- `np.finfo(float).eps`; preliz/internal/distribution_helper.py:11. -/
noncomputable def eps : ℝ := (1 / 2) ^ 52

theorem eps_pos : 0 < eps := by unfold eps; positivity

/-- Python's `a / b` on Python numbers. -/
noncomputable def pyDiv (a b : ℝ) : Except Err ℝ :=
  if b = 0 then .error .zeroDivision else .ok (a / b)

/-- Python's `x ** 0.5` on Python numbers. -/
noncomputable def pySqrt (x : ℝ) : Except Err ℝ :=
  if x < 0 then .error .complexResult else .ok (Real.sqrt x)

@[simp] theorem pyDiv_ok {a b : ℝ} (h : b ≠ 0) : pyDiv a b = .ok (a / b) := by simp [pyDiv, h]
@[simp] theorem pySqrt_ok {x : ℝ} (h : 0 ≤ x) : pySqrt x = .ok (Real.sqrt x) := by
  simp [pySqrt, not_lt.mpr h]

@[simp] theorem Except.ok_bind' {ε α β : Type} (a : α) (f : α → Except ε β) :
    (Except.ok a >>= f) = f a := rfl
@[simp] theorem Except.error_bind' {ε α β : Type} (e : ε) (f : α → Except ε β) :
    ((Except.error e : Except ε α) >>= f) = .error e := rfl
@[simp] theorem Except.pure_eq {ε α : Type} (a : α) : (pure a : Except ε α) = .ok a := rfl

/-- the call returns normally, with a result satisfying `P` -/
def Gives {ε α : Type} (r : Except ε α) (P : α → Prop) : Prop := ∃ a, r = .ok a ∧ P a

@[simp] theorem gives_ok {ε α : Type} (a : α) (P : α → Prop) :
    Gives (.ok a : Except ε α) P ↔ P a := by simp [Gives]
@[simp] theorem gives_error {ε α : Type} (e : ε) (P : α → Prop) :
    ¬ Gives (.error e : Except ε α) P := by simp [Gives]

end Verif
