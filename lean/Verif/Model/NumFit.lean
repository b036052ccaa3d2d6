import Verif.Model.Optim
import Verif.Model.MlFit

/-!
# Fits by a numerical optimiser, with the distribution object as mutable state

internal/optimization.py:93-196.  The objective functions re-parametrise the object they work on, so the
value an optimiser sees could depend on earlier evaluations.  The optimiser is an arbitrary strategy: it
asks for the residuals at points of its choice, one after the other, and stops with a point.
-/

namespace Verif.NumFit
open Verif Verif.Param Verif.Optim

/-- what an optimiser does next -/
inductive Strategy
  | stop (x : List ℝ)
  | ask (x : List ℝ) (next : List ℝ → Strategy)

/-- `least_squares` or `minimize`: starting point and bounds (per free parameter) -/
abbrev Optimiser := List (Option ℝ) → Box → Except Err Strategy

/-- the attributes the distribution functions of a family read -/
def lawAttrs : Family → List String
  | .simple .betaBinomial => ["alpha", "beta", "n"]
  | .simple .binomial => ["n", "p"]
  | .simple .cauchy => ["alpha", "beta"]
  | .simple .chiSquared => ["nu"]
  | .simple .discreteUniform => ["lower", "upper"]
  | .simple .discreteWeibull => ["q", "beta"]
  | .simple .exGaussian => ["mu", "sigma", "nu"]
  | .simple .geometric => ["p"]
  | .simple .gumbel => ["mu", "beta"]
  | .simple .halfCauchy => ["beta"]
  | .simple .hyperGeometric => ["N", "k", "n"]
  | .simple .laplace => ["mu", "b"]
  | .simple .logistic => ["mu", "s"]
  | .simple .logLogistic => ["alpha", "beta"]
  | .simple .logNormal => ["mu", "sigma"]
  | .simple .moyal => ["mu", "sigma"]
  | .simple .pareto => ["alpha", "m"]
  | .simple .poisson => ["mu"]
  | .simple .triangular => ["lower", "c", "upper"]
  | .simple .truncatedNormal => ["mu", "sigma", "lower", "upper"]
  | .simple .uniform => ["lower", "upper"]
  | .simple .vonMises => ["mu", "kappa"]
  | .simple .weibull => ["alpha", "beta"]
  | .simple .ziBinomial => ["psi", "n", "p"]
  | .simple .ziPoisson => ["psi", "mu"]
  | .asymmetricLaplace => ["kappa", "mu", "b"]
  | .bernoulli => ["p"]
  | .beta => ["alpha", "beta"]
  | .betaScaled => ["alpha", "beta", "lower", "upper"]
  | .exponential => ["lam"]
  | .gamma => ["alpha", "beta"]
  | .halfNormal => ["sigma"]
  | .halfStudentT => ["nu", "sigma"]
  | .inverseGamma => ["alpha", "beta"]
  | .kumaraswamy => ["a", "b"]
  | .logitNormal => ["mu", "sigma"]
  | .negativeBinomial => ["mu", "alpha"]
  | .normal => ["mu", "sigma"]
  | .rice => ["nu", "sigma"]
  | .skewNormal => ["mu", "sigma", "alpha"]
  | .skewStudentT => ["mu", "sigma", "a", "b"]
  | .studentT => ["nu", "mu", "sigma"]
  | .wald => ["mu", "lam"]
  | .ziNegativeBinomial => ["psi", "mu", "alpha"]

/-- what `cdf`, `pdf`, `ppf`, … of the object are computed from -/
def law (f : Family) (o : Obj) : List (Option ℝ) := (lawAttrs f).map o.attr

/-- the optimiser runs; every evaluation re-parametrises the object and reads the residuals off it -/
noncomputable def run (f : Family) (names : List String) (noneIdx : List ℕ) (fixed : List ℝ)
    (residual : List (Option ℝ) → List ℝ) : Strategy → Obj → Except Err (List ℝ × Obj)
  | .stop x, o => .ok (x, o)
  | .ask x next, o => do
    let o ← applyCandidate f names noneIdx fixed x o
    run f names noneIdx fixed residual (next (residual (law f o))) o

/-- optimization.py:93-107, 110-125, 128-141, 144-157: the common shape.  `names` is `param_names`, `box`
is `params_support`. -/
noncomputable def fit (opt : Optimiser) (f : Family) (names : List String) (box : Box)
    (noneIdx : List ℕ) (fixed : List ℝ) (residual : List (Option ℝ) → List ℝ) (o : Obj) :
    Except Err (List ℝ × Obj) := do
  let init := noneIdx.map fun i => ((o.params.getD [])[i]?).join
  let bounds := noneIdx.filterMap fun i => box[i]?
  let s ← opt init bounds
  let (x, o) ← run f names noneIdx fixed residual s o
  let o ← applyCandidate f names noneIdx fixed x o
  return (x, o)

/-- optimization.py:94-98 -/
noncomputable def quartileResidual (cdf : List (Option ℝ) → ℝ → ℝ) (q1 q2 q3 : ℝ)
    (l : List (Option ℝ)) : List ℝ := [cdf l q1 - 0.25, cdf l q2 - 0.5, cdf l q3 - 0.75]

/-- optimization.py:111-115 -/
noncomputable def pdfResidual (pdf : List (Option ℝ) → ℝ → ℝ) (xs epdf : List ℝ)
    (l : List (Option ℝ)) : List ℝ := List.zipWith (fun x e => pdf l x - e) xs epdf

/-- optimization.py:145-149 (one residual: the objective itself) -/
noncomputable def quantileResidual (ppf : List (Option ℝ) → ℝ → ℝ) (qs target : List ℝ)
    (l : List (Option ℝ)) : List ℝ := [(List.zipWith (fun q t => (ppf l q - t) ^ 2) qs target).sum]

/-- optimization.py:129-133 (one residual: the objective itself); `moments` is `dist.moments(moments)` -/
noncomputable def momentsResidual (moments : List (Option ℝ) → List ℝ) (target : List ℝ)
    (l : List (Option ℝ)) : List ℝ := [(List.zipWith (fun v t => (v - t) ^ 2) (moments l) target).sum]

/-- optimization.py:161-165 -/
noncomputable def meanSigmaResidual (meanStd : List (Option ℝ) → ℝ × ℝ) (mean sigma : ℝ)
    (l : List (Option ℝ)) : List ℝ := [|(meanStd l).1 - mean| + |(meanStd l).2 - sigma|]

/-- optimization.py:93-107 -/
noncomputable def optimizeQuartile (opt : Optimiser) (f : Family) (cdf : List (Option ℝ) → ℝ → ℝ)
    (q1 q2 q3 : ℝ) (names : List String) (box : Box) (noneIdx : List ℕ) (fixed : List ℝ) (o : Obj) :=
  fit opt f names box noneIdx fixed (quartileResidual cdf q1 q2 q3) o

/-- optimization.py:110-125; the value returned is `opt["cost"]`, half the sum of squares -/
noncomputable def optimizePdf (opt : Optimiser) (f : Family) (pdf : List (Option ℝ) → ℝ → ℝ)
    (xs epdf : List ℝ) (names : List String) (box : Box) (noneIdx : List ℕ) (fixed : List ℝ) (o : Obj) :
    Except Err (ℝ × Obj) := do
  let (_, o) ← fit opt f names box noneIdx fixed (pdfResidual pdf xs epdf) o
  return (((pdfResidual pdf xs epdf (law f o)).map (· ^ 2)).sum / 2, o)

/-- optimization.py:128-141 -/
noncomputable def optimizeMoments (opt : Optimiser) (f : Family) (moments : List (Option ℝ) → List ℝ)
    (target : List ℝ) (names : List String) (box : Box) (noneIdx : List ℕ) (fixed : List ℝ) (o : Obj) :=
  fit opt f names box noneIdx fixed (momentsResidual moments target) o

/-- optimization.py:144-157 -/
noncomputable def optimizeQuantiles (opt : Optimiser) (f : Family) (ppf : List (Option ℝ) → ℝ → ℝ)
    (qs target : List ℝ) (names : List String) (box : Box) (noneIdx : List ℕ) (fixed : List ℝ) (o : Obj) :=
  fit opt f names box noneIdx fixed (quantileResidual ppf qs target) o

/-- optimization.py:160-196.  The object is first set to `start` (the caller's guess, or the defaults of
distribution_helper.py:193-253), which is a full list of arguments of `_update`. -/
noncomputable def optimizeMeanSigma (opt : Optimiser) (f : Family) (meanStd : List (Option ℝ) → ℝ × ℝ)
    (mean sigma : ℝ) (start : List ℝ) (box : Box) (o : Obj) : Except Err (List ℝ × Obj) := do
  let split := getFixedParams o
  let o ← update f start o
  fit opt f o.names box split.1 split.2 (meanSigmaResidual meanStd mean sigma) o

end Verif.NumFit
