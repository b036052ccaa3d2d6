import Verif.Spec.LogScale
import Verif.Spec.PeakGiven

/-!
# Positive families with one of their two parameters given (C135)
-/

namespace Verif.Spec
open MeasureTheory Verif.Param

/-- which parameter is given, and its value -/
inductive PosGiven
  | weibullAlpha (a : ℝ)
  | gammaAlpha (a : ℝ)
  | inverseGammaAlpha (a : ℝ)
  | logNormalSigma (s : ℝ)
  | logLogisticBeta (b : ℝ)
  | logNormalMu (m : ℝ)
  | logLogisticAlpha (a : ℝ)
  | paretoAlpha (a : ℝ)
  | paretoM (m : ℝ)

/-- the value given is admissible -/
def PosGiven.Ok : PosGiven → Prop
  | .weibullAlpha a => 0 < a
  | .gammaAlpha a => 0 < a
  | .inverseGammaAlpha a => 0 < a
  | .logNormalSigma s => 0 < s
  | .logLogisticBeta b => 0 < b
  | .logNormalMu _ => True
  | .logLogisticAlpha a => 0 < a
  | .paretoAlpha a => 0 < a
  | .paretoM m => 0 < m

/-- the values of the other parameter -/
def PosGiven.Free : PosGiven → ℝ → Prop
  | .logNormalSigma _, _ => True
  | _, v => 0 < v

/-- the documented density (weibull.py:20-22, gamma.py:20-22, inversegamma.py:20-22, lognormal.py:24-26, loglogistic.py:20-22,
pareto.py:17-19) with the other parameter `v` -/
noncomputable def PosGiven.pdf : PosGiven → ℝ → ℝ → ℝ
  | .weibullAlpha a, v => weibullPdf a v
  | .gammaAlpha a, v => gammaPdf a v
  | .inverseGammaAlpha a, v => inverseGammaPdf a v
  | .logNormalSigma s, v => fun x => if 0 < x then logNormalPdf v s x else 0
  | .logLogisticBeta b, v => logLogisticPdf v b
  | .logNormalMu m, v => fun x => if 0 < x then logNormalPdf m v x else 0
  | .logLogisticAlpha a, v => logLogisticPdf a v
  | .paretoAlpha a, v => paretoPdf a v
  | .paretoM m, v => paretoPdf v m

/-- how wide the distribution is: the number by which the standard one is multiplied, or its logarithm -/
noncomputable def PosGiven.width : PosGiven → ℝ → ℝ
  | .gammaAlpha _, v => 1 / v
  | .logNormalSigma _, v => Real.exp v
  | .logLogisticAlpha _, v => 1 / v
  | .paretoM _, v => 1 / v
  | _, v => v

/-- a shape is given and the distributions are the multiples of one of them -/
def PosGiven.Stretches : PosGiven → Prop
  | .weibullAlpha _ | .gammaAlpha _ | .inverseGammaAlpha _ | .logNormalSigma _ | .logLogisticBeta _ => True
  | _ => False

/-- the class -/
def PosGiven.family : PosGiven → Family
  | .weibullAlpha _ => .simple .weibull
  | .gammaAlpha _ => .gamma
  | .inverseGammaAlpha _ => .inverseGamma
  | .logNormalSigma _ | .logNormalMu _ => .simple .logNormal
  | .logLogisticBeta _ | .logLogisticAlpha _ => .simple .logLogistic
  | .paretoAlpha _ | .paretoM _ => .simple .pareto

/-- the argument the user gives -/
noncomputable def PosGiven.given : PosGiven → Kw
  | .weibullAlpha a | .gammaAlpha a | .inverseGammaAlpha a | .logLogisticAlpha a | .paretoAlpha a =>
    fun k => if k = "alpha" then some a else none
  | .logNormalSigma s => fun k => if k = "sigma" then some s else none
  | .logLogisticBeta b => fun k => if k = "beta" then some b else none
  | .logNormalMu m => fun k => if k = "mu" then some m else none
  | .paretoM m => fun k => if k = "m" then some m else none

/-- the two parameters, in the order of the class -/
noncomputable def PosGiven.values : PosGiven → ℝ → List (Option ℝ)
  | .weibullAlpha a, v | .gammaAlpha a, v | .inverseGammaAlpha a, v | .logNormalMu a, v | .logLogisticAlpha a, v
  | .paretoAlpha a, v => [some a, some v]
  | .logNormalSigma b, v | .logLogisticBeta b, v | .paretoM b, v => [some v, some b]

end Verif.Spec
