import Verif.Spec.Modifier
import Verif.Spec.Circular
import Mathlib.Probability.Distributions.Gaussian.Real
import Mathlib.MeasureTheory.Integral.Gamma

/-!
# The Rice and Weibull laws

Used by C73.
-/

namespace Verif.Spec
open MeasureTheory ProbabilityTheory

/-- the distance from the origin of a point with independent normal coordinates centred at (nu, 0) -/
noncomputable def riceLaw (nu sigma : ℝ) : Measure ℝ :=
  ((gaussianReal nu (Real.toNNReal (sigma ^ 2))).prod (gaussianReal 0 (Real.toNNReal (sigma ^ 2)))).map
    fun p => Real.sqrt (p.1 ^ 2 + p.2 ^ 2)

/-- the Weibull density -/
noncomputable def weibullPdf (alpha beta x : ℝ) : ℝ :=
  if x ≤ 0 then 0 else alpha / beta * (x / beta) ^ (alpha - 1) * Real.exp (-(x / beta) ^ alpha)

noncomputable def weibullLaw (alpha beta : ℝ) : Measure ℝ :=
  volume.withDensity fun x => ENNReal.ofReal (weibullPdf alpha beta x)

/-- the density in the documentation of Rice -/
noncomputable def ricePdf (nu sigma x : ℝ) : ℝ :=
  if 0 < x then x / sigma ^ 2 * Real.exp (-(x ^ 2 + nu ^ 2) / (2 * sigma ^ 2)) * besselI0 (x * nu / sigma ^ 2) else 0

end Verif.Spec
