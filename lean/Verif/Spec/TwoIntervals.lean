import Mathlib.Data.Real.Basic

/-!
# Shapes of densities for which the two kinds of interval are compared (C155)
-/

namespace Verif.Spec

/-- symmetric around `c` and falling on both sides -/
structure SymPeak (f : ℝ → ℝ) (c : ℝ) : Prop where
  even : ∀ t, f (c - t) = f (c + t)
  falls : ∀ x y, 0 ≤ x → x < y → f (c + y) < f (c + x)

/-- falling from `a` on -/
def FallsFrom (f : ℝ → ℝ) (a : ℝ) : Prop := ∀ x y, a < x → x < y → f y < f x

end Verif.Spec
