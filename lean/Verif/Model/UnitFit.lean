import Verif.Model.NumFit
import Verif.Model.Mle

/-!
# Moment fits of LogitNormal, LogLogistic and VonMises

distributions/logitnormal.py:149-152, distributions/loglogistic.py:118-119, distributions/vonmises.py:119-121.
-/

namespace Verif.UnitFit
open Verif Verif.Param Verif.NumFit Verif.Optim

/-- logitnormal.py:149-152.  `mean` strictly inside the unit interval: elsewhere `logit` gives an infinite value, or none. -/
noncomputable def logitNormalMoments (mean sigma : ℝ) (o : Obj) : Except Err Obj :=
  let mu := Mle.logit mean
  -- `np.diff` of a pair is the second minus the first
  let sigma := (mean + sigma * 3) - (mean - sigma * 3)
  update .logitNormal [mu, sigma] o

/-- loglogistic.py:118-119; the starting point is that of distribution_helper.py:220 -/
noncomputable def logLogisticMoments (opt : Optimiser) (meanStd : List (Option ℝ) → ℝ × ℝ) (mean sigma : ℝ) (box : Box) (o : Obj) :
    Except Err (List ℝ × Obj) :=
  optimizeMeanSigma opt (.simple .logLogistic) meanStd mean sigma [1, 5] box o

/-- vonmises.py:119-121: the starting point.  `sigma` positive: for zero the quotient is infinite. -/
noncomputable def vonMisesStart (mean sigma : ℝ) : List ℝ := [mean, 1 / sigma ^ (1.8 : ℝ)]

/-- vonmises.py:119-121 -/
noncomputable def vonMisesMoments (opt : Optimiser) (meanStd : List (Option ℝ) → ℝ × ℝ) (mean sigma : ℝ) (box : Box) (o : Obj) :
    Except Err (List ℝ × Obj) :=
  optimizeMeanSigma opt (.simple .vonMises) meanStd mean sigma (vonMisesStart mean sigma) box o

end Verif.UnitFit
