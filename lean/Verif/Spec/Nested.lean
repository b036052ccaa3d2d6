import Mathlib.Data.EReal.Basic

/-!
# Densities without flat parts (C156)
-/

namespace Verif.Spec

/-- the density is constant on no interval inside the support -/
def NoFlat (f : ℝ → ℝ) (lo hi : EReal) : Prop :=
  ∀ p q : ℝ, p < q → lo ≤ (p : EReal) → (q : EReal) ≤ hi → ∃ x y : ℝ, p < x ∧ x < q ∧ p < y ∧ y < q ∧ f x ≠ f y

end Verif.Spec
