import Verif.Spec.TruncNormal
import Verif.Spec.MlExist
import Mathlib.MeasureTheory.Integral.IntervalIntegral.Basic

/-!
# Mean and variance of a sample; laws with an exponential density on an interval (C142)
-/

namespace Verif.Spec

noncomputable def sampleMean (s : List ℝ) : ℝ := s.sum / s.length

noncomputable def sampleVar (s : List ℝ) : ℝ := (s.map fun x => (x - sampleMean s) ^ 2).sum / s.length

/-- the expectation of `f` under the law on `[c, d]` whose density is proportional to `exp (t * x)` -/
noncomputable def tilted (t c d : ℝ) (f : ℝ → ℝ) : ℝ :=
  (∫ x in c..d, f x * Real.exp (t * x)) / ∫ x in c..d, Real.exp (t * x)

noncomputable def tiltedMean (t c d : ℝ) : ℝ := tilted t c d fun x => x

noncomputable def tiltedVar (t c d : ℝ) : ℝ := tilted t c d fun x => (x - tiltedMean t c d) ^ 2

end Verif.Spec
