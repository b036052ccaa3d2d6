import Verif.Spec.Law
import Verif.Spec.Circular
import Verif.Spec.QuartileShape
import Mathlib.MeasureTheory.Integral.Bochner.Set

/-!
# Kumaraswamy, LogLogistic, LogitNormal and VonMises: the documented laws (C138)

Densities and moments as printed at the head of the class documentation; the LogLogistic density is in
`Spec/QuartileShape.lean` and the VonMises density in `Spec/Circular.lean`.
-/

namespace Verif.Spec
open MeasureTheory

/-- kumaraswamy.py:16-19 on the support of line 36 -/
noncomputable def kumaraswamyPdf (a b x : ℝ) : ℝ :=
  if 0 < x ∧ x < 1 then a * b * x ^ (a - 1) * (1 - x ^ a) ^ (b - 1) else 0

/-- kumaraswamy.py:37 -/
noncomputable def kumaraswamyMean (a b : ℝ) : ℝ := b * ProbabilityTheory.beta (1 + 1 / a) b

/-- kumaraswamy.py:38 -/
noncomputable def kumaraswamyVar (a b : ℝ) : ℝ :=
  b * ProbabilityTheory.beta (1 + 2 / a) b - (b * ProbabilityTheory.beta (1 + 1 / a) b) ^ 2

/-- loglogistic.py:39 -/
noncomputable def logLogisticMean (a b : ℝ) : ℝ := a * Real.pi / b / Real.sin (Real.pi / b)

/-- loglogistic.py:40, where `b` stands for `π / β` -/
noncomputable def logLogisticVar (a b : ℝ) : ℝ :=
  a ^ 2 * (2 * (Real.pi / b) / Real.sin (2 * (Real.pi / b)) - (Real.pi / b) ^ 2 / Real.sin (Real.pi / b) ^ 2)

/-- logitnormal.py:24-28 on the support of line 43, with the precision `tau` -/
noncomputable def logitNormalTauPdf (mu tau x : ℝ) : ℝ :=
  if 0 < x ∧ x < 1 then
    1 / (x * (1 - x)) * √(tau / (2 * Real.pi)) * Real.exp (-(tau / 2) * (Real.log (x / (1 - x)) - mu) ^ 2)
  else 0

/-- the law with the density of vonmises.py:18-19 on the support of line 37 -/
noncomputable def vonMisesLaw (mu k : ℝ) : Measure ℝ :=
  ofPdf ((Set.Ioc (-Real.pi) Real.pi).indicator (vonMisesPdf mu k))

end Verif.Spec
