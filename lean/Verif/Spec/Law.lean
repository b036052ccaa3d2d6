import Verif.Spec.Moments
import Verif.Spec.Likelihood
import Mathlib.MeasureTheory.Measure.WithDensity
import Mathlib.MeasureTheory.Integral.Bochner.Basic
import Mathlib.MeasureTheory.Measure.Lebesgue.Basic
import Mathlib.Probability.Distributions.Beta

/-!
# The laws with the documented densities (C106)

Densities and mass functions as printed at the head of each class documentation.  Two are read with the scale that the
formula for the moments needs: `b` of AsymmetricLaplace is a scale (the documentation divides where it should multiply), and
StudentT is shifted by `mu` and scaled by `sigma` (the documentation prints the standard one).
-/

namespace Verif.Spec
open MeasureTheory Verif.Param

/-- a law on the line has total mass one, mean `m` and variance `v`, all integrals being finite -/
structure HasMoments (P : Measure ℝ) (m v : ℝ) : Prop where
  prob : IsProbabilityMeasure P
  int1 : Integrable (fun x : ℝ => x) P
  mean : ∫ x, x ∂P = m
  int2 : Integrable (fun x : ℝ => (x - m) ^ 2) P
  var : ∫ x, (x - m) ^ 2 ∂P = v

/-- the law with a density -/
noncomputable def ofPdf (f : ℝ → ℝ) : Measure ℝ := volume.withDensity fun x => ENNReal.ofReal (f x)

/-- the law with a mass function on the integers -/
noncomputable def ofPmf (f : ℤ → ℝ) : Measure ℝ :=
  Measure.sum fun k : ℤ => ENNReal.ofReal (f k) • Measure.dirac (k : ℝ)

noncomputable def asymLaplacePdf (k m b x : ℝ) : ℝ :=
  1 / (b * (k + 1 / k)) * Real.exp (if x < m then (x - m) / (b * k) else -(x - m) * k / b)

/-- as printed: `b` multiplies -/
noncomputable def asymLaplaceDocPdf (k m b x : ℝ) : ℝ :=
  b / (k + 1 / k) * Real.exp (if x < m then (x - m) * b / k else -(x - m) * b * k)

noncomputable def bernoulliPmf (p : ℝ) (x : ℤ) : ℝ := if x = 1 then p else if x = 0 then 1 - p else 0

noncomputable def betaPdf (a b x : ℝ) : ℝ :=
  if 0 < x ∧ x < 1 then x ^ (a - 1) * (1 - x) ^ (b - 1) / ProbabilityTheory.beta a b else 0

noncomputable def betaScaledPdf (a b l u x : ℝ) : ℝ :=
  if l < x ∧ x < u then (x - l) ^ (a - 1) * (u - x) ^ (b - 1) / ((u - l) ^ (a + b - 1) * ProbabilityTheory.beta a b) else 0

noncomputable def chiSquaredPdf (n x : ℝ) : ℝ :=
  if 0 < x then x ^ ((n - 2) / 2) * Real.exp (-x / 2) / (2 ^ (n / 2) * Real.Gamma (n / 2)) else 0

noncomputable def gammaPdf (a b x : ℝ) : ℝ :=
  if 0 < x then b ^ a * x ^ (a - 1) * Real.exp (-(b * x)) / Real.Gamma a else 0

noncomputable def gumbelPdf (m b x : ℝ) : ℝ := 1 / b * Real.exp (-((x - m) / b + Real.exp (-((x - m) / b))))

noncomputable def inverseGammaPdf (a b x : ℝ) : ℝ :=
  if 0 < x then b ^ a / Real.Gamma a * x ^ (-a - 1) * Real.exp (-b / x) else 0

noncomputable def logisticPdf (m s x : ℝ) : ℝ :=
  Real.exp (-((x - m) / s)) / (s * (1 + Real.exp (-((x - m) / s))) ^ 2)

noncomputable def moyalPdf (m s x : ℝ) : ℝ :=
  1 / (√(2 * Real.pi) * s) * Real.exp (-(1 / 2) * ((x - m) / s + Real.exp (-((x - m) / s))))

noncomputable def paretoPdf (a m x : ℝ) : ℝ := if m ≤ x then a * m ^ a / x ^ (a + 1) else 0

noncomputable def studentPdf (n m s x : ℝ) : ℝ :=
  Real.Gamma ((n + 1) / 2) / (√(n * Real.pi) * Real.Gamma (n / 2) * s) * (1 + ((x - m) / s) ^ 2 / n) ^ (-(n + 1) / 2)

noncomputable def waldPdf (m l x : ℝ) : ℝ :=
  if 0 < x then (l / (2 * Real.pi)) ^ (1 / 2 : ℝ) * x ^ (-3 / 2 : ℝ) * Real.exp (-(l / (2 * x)) * ((x - m) / m) ^ 2) else 0

/-- the law of a family with canonical parameters `vals` -/
noncomputable def lawOf : MomFam → List ℝ → Measure ℝ
  | .asymmetricLaplace, [k, m, b] => ofPdf (asymLaplacePdf k m b)
  | .bernoulli, [p] => ofPmf (bernoulliPmf p)
  | .beta, [a, b] => ofPdf (betaPdf a b)
  | .betaScaled, [a, b, l, u] => ofPdf (betaScaledPdf a b l u)
  | .chiSquared, [n] => ofPdf (chiSquaredPdf n)
  | .discreteUniform, [l, u] => ofPmf (discreteUniformPmf ⌊l⌋ ⌊u⌋)
  | .exponential, [l] => ofPdf (exponentialPdf l)
  | .gamma, [a, b] => ofPdf (gammaPdf a b)
  | .geometric, [p] => ofPmf fun k => if k < 0 then 0 else geometricPmf p k.toNat
  | .gumbel, [m, b] => ofPdf (gumbelPdf m b)
  | .halfNormal, [s] => ofPdf (halfNormalPdf s)
  | .inverseGamma, [a, b] => ofPdf (inverseGammaPdf a b)
  | .laplace, [m, b] => ofPdf (laplacePdf m b)
  | .logistic, [m, s] => ofPdf (logisticPdf m s)
  | .logNormal, [m, s] => ofPdf fun x => if 0 < x then logNormalPdf m s x else 0
  | .moyal, [m, s] => ofPdf (moyalPdf m s)
  | .normal, [m, s] => ofPdf (normalPdf m s)
  | .pareto, [a, m] => ofPdf (paretoPdf a m)
  | .poisson, [m] => ofPmf fun k => if k < 0 then 0 else poissonPmf m k.toNat
  | .studentT, [n, m, s] => ofPdf (studentPdf n m s)
  | .triangular, [l, c, u] => ofPdf (triangularPdf l c u)
  | .uniform, [l, u] => ofPdf (uniformPdf l u)
  | .wald, [m, l] => ofPdf (waldPdf m l)
  | _, _ => 0

/-- frozen, and the law with the documented density exists and has the requested mean and standard deviation -/
def MatchesLaw (f : MomFam) (mean sigma : ℝ) (o : Verif.Param.Obj) : Prop :=
  ∃ vals, Holds f vals o ∧ HasMoments (lawOf f vals) mean (sigma ^ 2)

end Verif.Spec
