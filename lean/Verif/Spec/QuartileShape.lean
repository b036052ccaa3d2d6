import Verif.Spec.HalfScale
import Verif.Spec.RiceWeibull

/-!
# Families with two parameters whose quartiles have a fixed shape (C120)
-/

namespace Verif.Spec
open MeasureTheory Verif.Param

/-- loglogistic.py:20-22, on the support `[0, ∞)` -/
noncomputable def logLogisticPdf (a b x : ℝ) : ℝ :=
  if 0 < x then b / a * (x / a) ^ (b - 1) / (1 + (x / a) ^ b) ^ 2 else 0

inductive TwoFam
  | uniform
  | gumbel
  | logNormal
  | logLogistic
  | weibull
  | pareto

/-- the documented density; the parameters in the order of the constructor -/
noncomputable def TwoFam.pdf : TwoFam → ℝ → ℝ → ℝ → ℝ
  | .uniform => uniformPdf
  | .gumbel => gumbelPdf
  | .logNormal => fun m s x => if 0 < x then logNormalPdf m s x else 0
  | .logLogistic => logLogisticPdf
  | .weibull => weibullPdf
  | .pareto => paretoPdf

/-- the documented conditions on the parameters -/
def TwoFam.Good : TwoFam → ℝ → ℝ → Prop
  | .uniform, l, u => l < u
  | .gumbel, _, b => 0 < b
  | .logNormal, _, s => 0 < s
  | .logLogistic, a, b => 0 < a ∧ 0 < b
  | .weibull, a, b => 0 < a ∧ 0 < b
  | .pareto, a, m => 0 < a ∧ 0 < m

/-- the quartiles may be anywhere, or have to be positive -/
def TwoFam.Dom : TwoFam → ℝ → Prop
  | .uniform, _ => True
  | .gumbel, _ => True
  | _, q => 0 < q

/-- the class -/
def TwoFam.family : TwoFam → Family
  | .uniform => .simple .uniform
  | .gumbel => .simple .gumbel
  | .logNormal => .simple .logNormal
  | .logLogistic => .simple .logLogistic
  | .weibull => .simple .weibull
  | .pareto => .simple .pareto

/-- uniform.py:51, gumbel.py:60, lognormal.py:63, loglogistic.py:59, weibull.py:59, pareto.py:54 -/
noncomputable def TwoFam.box : TwoFam → Box
  | .uniform => [(⊥, ⊤), (⊥, ⊤)]
  | .gumbel => [(⊥, ⊤), ((eps : ℝ), ⊤)]
  | .logNormal => [(⊥, ⊤), ((eps : ℝ), ⊤)]
  | _ => [((eps : ℝ), ⊤), ((eps : ℝ), ⊤)]

/-- three values are the quartiles of a law -/
def Quartiles (f : ℝ → ℝ) (q1 q2 q3 : ℝ) : Prop :=
  (ofPdf f).real (Set.Iic q1) = 1 / 4 ∧ (ofPdf f).real (Set.Iic q2) = 1 / 2 ∧ (ofPdf f).real (Set.Iic q3) = 3 / 4

/-- the shape the quartiles of every distribution of the family have -/
noncomputable def TwoFam.Shape : TwoFam → ℝ → ℝ → ℝ → Prop
  | .uniform, q1, q2, q3 => q2 - q1 = q3 - q2
  | .gumbel, q1, q2, q3 => (q3 - q2) * Real.log 2 = (q2 - q1) * Real.log (Real.log 2 / Real.log (4 / 3))
  | .logNormal, q1, q2, q3 => q2 ^ 2 = q1 * q3
  | .logLogistic, q1, q2, q3 => q2 ^ 2 = q1 * q3
  | .weibull, q1, q2, q3 =>
    Real.log (q2 / q1) * Real.log 2 = Real.log (q3 / q2) * Real.log (Real.log 2 / Real.log (4 / 3))
  | .pareto, q1, q2, q3 => Real.log (q2 / q1) * Real.log 2 = Real.log (q3 / q2) * Real.log (3 / 2)

/-- the parameters of the distribution with these quartiles; `z` is the upper quartile of the standard normal -/
noncomputable def TwoFam.fitted (z : ℝ) : TwoFam → ℝ → ℝ → ℝ → ℝ × ℝ
  | .uniform, q1, q2, q3 => (q1 - (q2 - q1), q3 + (q3 - q2))
  | .gumbel, q1, q2, _ => (q2 + (q2 - q1) / Real.log 2 * Real.log (Real.log 2), (q2 - q1) / Real.log 2)
  | .logNormal, _, q2, q3 => (Real.log q2, Real.log (q3 / q2) / z)
  | .logLogistic, _, q2, q3 => (q2, Real.log 3 / Real.log (q3 / q2))
  | .weibull, _, q2, q3 =>
    (Real.log 2 / Real.log (q3 / q2), q2 / Real.log 2 ^ (Real.log (q3 / q2) / Real.log 2))
  | .pareto, _, q2, q3 => (Real.log 2 / Real.log (q3 / q2), q2 ^ 2 / q3)

end Verif.Spec
