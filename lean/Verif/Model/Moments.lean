import Verif.Model.Param
import Mathlib.NumberTheory.Harmonic.EulerMascheroni
import Mathlib.Analysis.SpecialFunctions.Trigonometric.Basic

/-!
# `_fit_moments` of the families with a closed form

The families that call `optimize_mean_sigma` / `optimize_moments_rice` (a numerical optimiser),
Weibull and HalfStudentT (a Lanczos approximation of the gamma function) are in `RiceWeibull` and `MomentsMore`.
Divisions: `mean`, `sigma` are floats; `pyDiv` is used for divisions by an argument, so a zero
divisor is an error in the model (with numpy scalars it is an `inf`/`nan` instead).
-/

namespace Verif.Param
open Verif

/-- `np.euler_gamma` -/
noncomputable abbrev eulerGamma : ℝ := Real.eulerMascheroniConstant

/-- Families with a closed-form `_fit_moments`. -/
inductive MomFam
  | asymmetricLaplace | bernoulli | beta | betaScaled | chiSquared | discreteUniform | exponential
  | gamma | geometric | gumbel | halfNormal | inverseGamma | laplace | logistic | logNormal | moyal
  | normal | pareto | poisson | studentT | triangular | uniform | wald
  deriving DecidableEq

def MomFam.family : MomFam → Family
  | .asymmetricLaplace => .asymmetricLaplace
  | .bernoulli => .bernoulli
  | .beta => .beta
  | .betaScaled => .betaScaled
  | .chiSquared => .simple .chiSquared
  | .discreteUniform => .simple .discreteUniform
  | .exponential => .exponential
  | .gamma => .gamma
  | .geometric => .simple .geometric
  | .gumbel => .simple .gumbel
  | .halfNormal => .halfNormal
  | .inverseGamma => .inverseGamma
  | .laplace => .simple .laplace
  | .logistic => .simple .logistic
  | .logNormal => .simple .logNormal
  | .moyal => .simple .moyal
  | .normal => .normal
  | .pareto => .simple .pareto
  | .poisson => .simple .poisson
  | .studentT => .studentT
  | .triangular => .simple .triangular
  | .uniform => .simple .uniform
  | .wald => .wald

/-- asymmetric_laplace.py:156-160 -/
noncomputable def asymLaplaceMoments (mean sigma : ℝ) : List ℝ :=
  [1, mean, (sigma / 2) * Real.sqrt 2]

/-- beta.py:142-146 -/
noncomputable def betaMoments (mean sigma : ℝ) : Except Err (List ℝ) := do
  let (alpha, beta) ← betaFromMuSigma mean sigma
  return [max 0.5 alpha, max 0.5 beta]

/-- betascaled.py:99-105; the new `_update` call keeps `lower`, `upper` -/
noncomputable def betaScaledMoments (lower upper mean sigma : ℝ) : Except Err (List ℝ) := do
  let mean ← pyDiv (mean - lower) (upper - lower)
  let sigma ← pyDiv sigma (upper - lower)
  let r ← pyDiv (mean * (1 - mean)) (sigma ^ 2)
  let kappa := r - 1
  return [max 0.5 (kappa * mean), max 0.5 (kappa * (1 - mean)), lower, upper]

/-- discrete_uniform.py:124-128 (the floor/ceil happen in `_update`) -/
noncomputable def discreteUniformMoments (mean sigma : ℝ) : List ℝ :=
  let spr := Real.sqrt (12 * sigma ^ 2 + 1)
  [0.5 * (2 * mean - spr + 1), 0.5 * (2 * mean + spr - 1)]

/-- gumbel.py:122-125 -/
noncomputable def gumbelMoments (mean sigma : ℝ) : List ℝ :=
  let beta := sigma / Real.pi * Real.sqrt 6
  [mean - beta * eulerGamma, beta]

/-- halfnormal.py:145-146 -/
noncomputable def halfNormalMoments (sigma : ℝ) : List ℝ := [sigma / Real.sqrt (1 - 2 / Real.pi)]

/-- laplace.py:117-119 -/
noncomputable def laplaceMoments (mean sigma : ℝ) : List ℝ := [mean, (sigma / 2) * Real.sqrt 2]

/-- logistic.py:117-119 -/
noncomputable def logisticMoments (mean sigma : ℝ) : List ℝ :=
  [mean, Real.sqrt (3 * sigma ^ 2 / Real.pi ^ 2)]

/-- lognormal.py:125-128 -/
noncomputable def logNormalMoments (mean sigma : ℝ) : Except Err (List ℝ) := do
  let r ← pyDiv (mean ^ 2) (Real.sqrt (sigma ^ 2 + mean ^ 2))
  let q ← pyDiv (sigma ^ 2) (mean ^ 2)
  return [Real.log r, Real.sqrt (Real.log (q + 1))]

/-- moyal.py:124-127 -/
noncomputable def moyalMoments (mean sigma : ℝ) : List ℝ :=
  let sigma := sigma / Real.pi * Real.sqrt 2
  [mean - sigma * (eulerGamma + Real.log 2), sigma]

/-- pareto.py:117-120 -/
noncomputable def paretoMoments (mean sigma : ℝ) : Except Err (List ℝ) := do
  let r ← pyDiv mean sigma
  let alpha := 1 + Real.sqrt (1 + r ^ 2)
  let m ← pyDiv ((alpha - 1) * mean) alpha
  return [alpha, m]

/-- studentt.py:164-175; `nu` is the attribute before the call -/
noncomputable def studentTMoments (nu : Option ℝ) (mean sigma : ℝ) : List ℝ :=
  match nu with
  | none => [100, mean, sigma]
  | some nu =>
    if nu ≤ 2 then [2.1, mean, sigma]
    else [nu, mean, sigma / Real.sqrt (nu / (nu - 2))]

/-- triangular.py:128-133 -/
noncomputable def triangularMoments (mean sigma : ℝ) : List ℝ :=
  [mean - Real.sqrt 6 * sigma, mean, mean + Real.sqrt 6 * sigma]

/-- uniform.py:123-126 -/
noncomputable def uniformMoments (mean sigma : ℝ) : List ℝ :=
  [mean - 1.73205 * sigma, mean + 1.73205 * sigma]

/-- wald.py:168-170 -/
noncomputable def waldMoments (mean sigma : ℝ) : Except Err (List ℝ) := do
  let lam ← pyDiv (mean ^ 3) (sigma ^ 2)
  return [mean, lam]

/-- The arguments that `_fit_moments` passes to `_update` (files: the definitions above, and
bernoulli.py:91-92, chi_squared.py:114-115, exponential.py:137-139, gamma.py:170-172,
geometric.py:109-111, inversegamma.py:159-161, normal.py:103-104, poisson.py:115-116). -/
noncomputable def momentParams (f : MomFam) (o : Obj) (mean sigma : ℝ) : Except Err (List ℝ) :=
  match f with
  | .asymmetricLaplace => .ok (asymLaplaceMoments mean sigma)
  | .bernoulli => .ok [mean]
  | .beta => betaMoments mean sigma
  | .betaScaled =>
    match o.attr "lower", o.attr "upper" with
    | some l, some u => betaScaledMoments l u mean sigma
    | _, _ => .error .typeError
  | .chiSquared => .ok [mean]
  | .discreteUniform => .ok (discreteUniformMoments mean sigma)
  | .exponential => do let l ← pyDiv 1 mean; return [l]
  | .gamma => do let (a, b) ← gammaFromMuSigma mean sigma; return [a, b]
  | .geometric => do let p ← pyDiv 1 mean; return [p]
  | .gumbel => .ok (gumbelMoments mean sigma)
  | .halfNormal => .ok (halfNormalMoments sigma)
  | .inverseGamma => do let (a, b) ← invGammaFromMuSigma mean sigma; return [a, b]
  | .laplace => .ok (laplaceMoments mean sigma)
  | .logistic => .ok (logisticMoments mean sigma)
  | .logNormal => logNormalMoments mean sigma
  | .moyal => .ok (moyalMoments mean sigma)
  | .normal => .ok [mean, sigma]
  | .pareto => paretoMoments mean sigma
  | .poisson => .ok [mean]
  | .studentT => .ok (studentTMoments (o.attr "nu") mean sigma)
  | .triangular => .ok (triangularMoments mean sigma)
  | .uniform => .ok (uniformMoments mean sigma)
  | .wald => waldMoments mean sigma

/-- `dist._fit_moments(mean, sigma)` -/
noncomputable def fitMoments (f : MomFam) (mean sigma : ℝ) (o : Obj) : Except Err Obj := do
  let vals ← momentParams f o mean sigma
  update f.family vals o

end Verif.Param
