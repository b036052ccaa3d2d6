import Verif.Spec.QuartileShape
import Verif.Spec.LocScale

/-!
# Distributions whose logarithm has a location and a scale (C131)
-/

namespace Verif.Spec
open MeasureTheory Verif.Param

/-- LogNormal and LogLogistic -/
inductive LogFam
  | logNormal
  | logLogistic

/-- the documented density (lognormal.py:24-26, loglogistic.py:20-22) of the distribution whose logarithm has location `m` and
scale `s`: LogNormal has `mu = m` and `sigma = s`, LogLogistic has `alpha = exp m` and `beta = 1 / s` -/
noncomputable def LogFam.pdf : LogFam → ℝ → ℝ → ℝ → ℝ
  | .logNormal, m, s => fun x => if 0 < x then logNormalPdf m s x else 0
  | .logLogistic, m, s => logLogisticPdf (Real.exp m) (1 / s)

/-- the class -/
def LogFam.family : LogFam → Family
  | .logNormal => .simple .logNormal
  | .logLogistic => .simple .logLogistic

/-- its two parameters, in the order of the class -/
noncomputable def LogFam.params : LogFam → ℝ → ℝ → List ℝ
  | .logNormal, m, s => [m, s]
  | .logLogistic, m, s => [Real.exp m, 1 / s]

end Verif.Spec
