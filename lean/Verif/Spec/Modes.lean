import Mathlib.MeasureTheory.Measure.Real
import Mathlib.MeasureTheory.Constructions.BorelSpace.Real

/-!
# What a mode is
-/

namespace Verif.Spec
open MeasureTheory

/-- `x` is the smallest of the most probable values -/
def FirstMode (μ : Measure ℝ) (x : ℝ) : Prop := (∀ y, μ.real {y} ≤ μ.real {x}) ∧ ∀ y < x, μ.real {y} < μ.real {x}

/-- every point of the open interval that is farther than `tol` from `x` is beaten by a point that is not -/
def PeakNear (f : ℝ → ℝ) (a c tol x : ℝ) : Prop :=
  ∀ y ∈ Set.Ioo a c, tol < |y - x| → ∃ z ∈ Set.Ioo a c, |z - x| ≤ tol ∧ f y < f z

/-- `f` rises strictly up to `m` and falls strictly after it, on the open interval -/
def PeaksAt (f : ℝ → ℝ) (a c m : ℝ) : Prop :=
  StrictMonoOn f (Set.Ioo a c ∩ Set.Iic m) ∧ StrictAntiOn f (Set.Ioo a c ∩ Set.Ici m)

end Verif.Spec
