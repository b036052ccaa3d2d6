import Verif.Spec.Likelihood
import Mathlib.MeasureTheory.Integral.IntervalIntegral.Basic
import Mathlib.Analysis.SpecialFunctions.Integrals.Basic

/-!
# The von Mises density, and the moments of the exponentially modified Gaussian
-/

namespace Verif.Spec

/-- modified Bessel functions of the first kind, orders 0 and 1 (Abramowitz and Stegun 9.6.19) -/
noncomputable def besselI0 (k : ℝ) : ℝ := 1 / Real.pi * ∫ t in (0 : ℝ)..Real.pi, Real.exp (k * Real.cos t)
noncomputable def besselI1 (k : ℝ) : ℝ :=
  1 / Real.pi * ∫ t in (0 : ℝ)..Real.pi, Real.cos t * Real.exp (k * Real.cos t)

/-- vonmises.py docstring -/
noncomputable def vonMisesPdf (mu k x : ℝ) : ℝ := Real.exp (k * Real.cos (x - mu)) / (2 * Real.pi * besselI0 k)

/-- mean and variance as in exgaussian.py:40-43, and the textbook skewness; `Props/ExgLaw.lean` proves them of the density -/
noncomputable def exgMean (mu nu : ℝ) : ℝ := mu + nu
noncomputable def exgVar (sigma nu : ℝ) : ℝ := sigma ^ 2 + nu ^ 2
noncomputable def exgSkew (sigma nu : ℝ) : ℝ := 2 * nu ^ 3 / Real.sqrt (sigma ^ 2 + nu ^ 2) ^ 3

end Verif.Spec
