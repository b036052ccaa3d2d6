import Mathlib.Tactic
import Mathlib.Data.Real.Basic

/-! # Specification: the integer part of a number -/

namespace Verif.Spec

/-- `y` is the integer obtained from `x` by dropping its decimals: the integer closest to `x` among
those that lie between 0 and `x`. -/
def IntegerPart (x y : ℝ) : Prop :=
  (∃ m : ℤ, y = m) ∧ |x - y| < 1 ∧ (0 ≤ x → 0 ≤ y ∧ y ≤ x) ∧ (x ≤ 0 → x ≤ y ∧ y ≤ 0)

end Verif.Spec
