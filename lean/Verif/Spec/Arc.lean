import Mathlib.Analysis.SpecialFunctions.Trigonometric.Basic

/-!
# Arcs of the circle (C154)

The circle is the half-open interval `(-π, π]`.  Written independently of the model.
-/

namespace Verif.Spec
open Set

/-- the points met when turning counterclockwise from `a` to `b` -/
def arc (a b : ℝ) : Set ℝ := {x | x ∈ Ioc (-Real.pi) Real.pi ∧ ((a ≤ b ∧ a ≤ x ∧ x ≤ b) ∨ (b < a ∧ (a ≤ x ∨ x ≤ b)))}

/-- the angle one turns by -/
noncomputable def arcLength (a b : ℝ) : ℝ := if a ≤ b then b - a else b - a + 2 * Real.pi

end Verif.Spec
