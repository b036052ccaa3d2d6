import Verif.Model.NumFit

/-!
# Fitting an object that has been fitted before

`_fit_mle` of every family (internal/optimization.py:239-251 and the methods named below), repeated fits of one object
(ppls/pymc_io.py:31-40 `back_fitting_pymc` for vector-valued variables, internal/predictive_helper.py:7-13
`back_fitting_ppa`, which the user triggers as often as they like) and the fit of a two-dimensional sample on copies
(internal/optimization.py:424-440).

The estimators with a closed form, the log-density and the scipy optimisers are parameters (`Kit`).
-/

namespace Verif.Refit
open Verif Verif.Param Verif.Optim Verif.NumFit

/-- what `_fit_mle` does -/
inductive Way
  /-- `self._update(*closed_form(sample))` -/
  | direct
  /-- `optimize_ml`, `_fit_moments` has a closed form in mean and deviation -/
  | closedStart
  /-- `optimize_ml` after `lower` and `upper` have been set to the extremes of the sample -/
  | boxStart
  /-- `optimize_ml`, `_fit_moments` uses `self.nu` -/
  | nuStart
  /-- `optimize_ml`, `_fit_moments` calls `optimize_mean_sigma` -/
  | numericStart
  deriving DecidableEq

/-- distributions/*.py, methods `_fit_moments` and `_fit_mle`.  HyperGeometric, whose `optimize_mean_sigma` runs without
bounds, is counted with the direct ones; no theorem is about it. -/
def way : Family → Way
  | .simple .binomial => .direct            -- binomial.py:139-140
  | .simple .discreteUniform => .direct     -- discrete_uniform.py:130-133
  | .simple .exGaussian => .direct          -- exgaussian.py:133-139
  | .exponential => .direct                 -- exponential.py:141-143
  | .simple .geometric => .direct           -- geometric.py:113-115
  | .halfNormal => .direct                  -- halfnormal.py:148-149
  | .simple .laplace => .direct             -- laplace.py:121-123
  | .logitNormal => .direct                 -- logitnormal.py:154-156
  | .simple .logNormal => .direct           -- lognormal.py:130-132
  | .normal => .direct                      -- normal.py:106-107
  | .simple .poisson => .direct             -- poisson.py:118-119
  | .simple .triangular => .direct          -- triangular.py:135-139
  | .simple .uniform => .direct             -- uniform.py:128-131
  | .simple .vonMises => .direct            -- vonmises.py:123-128
  | .simple .hyperGeometric => .direct
  | .asymmetricLaplace | .bernoulli | .beta | .simple .cauchy | .simple .chiSquared | .gamma | .simple .gumbel
  | .simple .halfCauchy | .inverseGamma | .simple .logistic | .simple .moyal | .simple .pareto | .rice | .wald
  | .simple .weibull => .closedStart
  | .betaScaled | .simple .truncatedNormal => .boxStart
  | .studentT | .halfStudentT => .nuStart
  | .simple .betaBinomial      -- betabinomial.py:129-133
  | .simple .discreteWeibull   -- discrete_weibull.py:109-113
  | .kumaraswamy               -- kumaraswamy.py:117-121
  | .simple .logLogistic       -- loglogistic.py:121-125
  | .negativeBinomial          -- negativebinomial.py:173-177
  | .skewNormal                -- skewnormal.py:158-166
  | .skewStudentT              -- skew_studentt.py:156-160
  | .simple .ziBinomial        -- zi_binomial.py:131-135
  | .ziNegativeBinomial        -- zi_negativebinomial.py:187-191
  | .simple .ziPoisson => .numericStart -- zi_poisson.py:69-73

/-- everything that is not modelled -/
structure Kit where
  /-- closed-form estimators: arguments of `_update` -/
  est : Family → List ℝ → Except Err (List ℝ)
  /-- closed-form moment matching: arguments of `_update`, given bounds (for `boxStart`), `nu` (for `nuStart`), the mean
  and the deviation -/
  mom : Family → Option (ℝ × ℝ) → Option ℝ → ℝ → ℝ → Except Err (List ℝ)
  /-- mean and deviation of a distribution -/
  meanStd : Family → List (Option ℝ) → ℝ × ℝ
  /-- distribution_helper.py:193-253 -/
  start : Family → List ℝ
  box : Family → List String → Box
  logpdf : Family → List (Option ℝ) → ℝ → ℝ
  leastSquares : Optimiser
  minimize : (List ℝ → Except Err ℝ) → List (Option ℝ) → Box → Except Err (List ℝ)

/-- sample mean -/
noncomputable def mean (s : List ℝ) : ℝ := s.sum / s.length

/-- mean of the `k`-th powers of the deviations -/
noncomputable def central (k : ℕ) (s : List ℝ) : ℝ := (s.map fun x => (x - mean s) ^ k).sum / s.length

/-- `np.std` -/
noncomputable def std (s : List ℝ) : ℝ := Real.sqrt (central 2 s)

/-- `scipy.stats.skew` (external: the usual `m₃ / m₂^{3/2}`); `none` is NaN -/
noncomputable def skew (s : List ℝ) : Option ℝ :=
  if central 2 s = 0 then none else some (central 3 s / (central 2 s * Real.sqrt (central 2 s)))

/-- skewnormal.py:164-165, with numpy numbers: the square root of a negative number and `0 / 0` are NaN, `x / 0` is
infinite.  `none` is a value that is not finite. -/
noncomputable def skewAlpha (s : List ℝ) : Option ℝ :=
  match skew s with
  | none => none
  | some g => if g ^ 2 < 1 then some (g / Real.sqrt (1 - g ^ 2)) else none

/-- optimization.py:240-242 -/
noncomputable def negll (k : Kit) (f : Family) (o : Obj) (sample params : List ℝ) : Except Err ℝ := do
  let o ← update f params o
  return -(sample.map fun x => k.logpdf f (law f o) x).sum

/-- optimization.py:239-251 -/
noncomputable def optimizeMl (k : Kit) (f : Family) (fitMoments : Obj → Except Err Obj) (o : Obj) (sample : List ℝ) :
    Except Err Obj := do
  let o ← fitMoments o
  let x ← k.minimize (negll k f o sample) (o.params.getD []) (k.box f o.names)
  update f x o

/-- `dist._fit_mle(sample)`.  Where the numerical start meets a value that is not finite (`skewAlpha`), `least_squares`
raises: "Residuals are not finite in the initial point". -/
noncomputable def fitMle (k : Kit) (f : Family) (sample : List ℝ) (o : Obj) : Except Err Obj :=
  match way f with
  | .direct => do
    let v ← k.est f sample
    update f v o
  | .closedStart => optimizeMl k f (fun o => do
      let v ← k.mom f none none (mean sample) (std sample)
      update f v o) o sample
  | .boxStart => optimizeMl k f (fun o => do
      let v ← k.mom f (some (sample.foldr min (sample.headD 0), sample.foldr max (sample.headD 0))) none
        (mean sample) (std sample)
      update f v o) o sample
  | .nuStart => optimizeMl k f (fun o => do
      let v ← k.mom f none (o.attr "nu") (mean sample) (std sample)
      update f v o) o sample
  | .numericStart => do
    let o ← if f = .skewNormal then
        match skewAlpha sample with
        | none => .error .valueError
        | some a => .ok (o.set "alpha" (some a))
      else .ok o
    optimizeMl k f (fun o => do
      let (_, o) ← optimizeMeanSigma k.leastSquares f (k.meanStd f) (mean sample) (std sample) (k.start f)
        (k.box f o.names) o
      return o) o sample

/-- pymc_io.py:33-39 and predictive_helper.py:11-13: one object, fitted to one sample after the other; the parameters
after each fit are recorded.  `slices` are the slices `prior[rv_name][:, i]` that exist; `wanted` is how many the loop
asks for. -/
noncomputable def fitInTurn (k : Kit) (f : Family) : ℕ → List (List ℝ) → Obj →
    Except Err (List (List (Option ℝ)))
  | 0, _, _ => .ok []
  | _ + 1, [], _ => .error .indexError
  | n + 1, s :: rest, o => do
    let o ← fitMle k f s o
    let ps ← fitInTurn k f n rest o
    return (o.params.getD []) :: ps

/-- order of the positional arguments of `_parametrization`: the `def` line in each file -/
noncomputable def positional : Family → List String
  | .simple s => (simpleFam s).args
  | .asymmetricLaplace => ["kappa", "mu", "b", "q"]
  | .bernoulli => ["p", "logit_p"]
  | .beta => ["alpha", "beta", "mu", "sigma", "nu"]
  | .betaScaled => ["alpha", "beta", "lower", "upper"]
  | .exponential => ["lam", "scale"]
  | .gamma => ["alpha", "beta", "mu", "sigma"]
  | .halfNormal => ["sigma", "tau"]
  | .halfStudentT => ["nu", "sigma", "lam"]
  | .inverseGamma => ["alpha", "beta", "mu", "sigma"]
  | .kumaraswamy => ["a", "b"]
  | .logitNormal => ["mu", "sigma", "tau"]
  | .negativeBinomial => ["mu", "alpha", "p", "n"]
  | .normal => ["mu", "sigma", "tau"]
  | .rice => ["nu", "sigma", "b"]
  | .skewNormal => ["mu", "sigma", "alpha", "tau"]
  | .skewStudentT => ["mu", "sigma", "a", "b", "lam"]
  | .studentT => ["nu", "mu", "sigma", "lam"]
  | .wald => ["mu", "lam", "phi"]
  | .ziNegativeBinomial => ["psi", "mu", "alpha", "p", "n"]

/-- optimization.py:424-440: every row of a two-dimensional sample is fitted on a copy; the keyword arguments of the final
`_parametrization` are the arrays of the parameters, by name -/
noncomputable def fitRows (k : Kit) (f : Family) (o : Obj) : List (List ℝ) → Except Err (List Obj)
  | [] => .ok []
  | s :: rest => do
    let d ← fitMle k f s o
    let ds ← fitRows k f o rest
    return d :: ds

/-- `_parametrization` with arrays: numpy works component by component, except that the test `(a and b) is not None` of
Kumaraswamy (kumaraswamy.py:56) asks for the truth value of an array, which raises for more than one component.  `kws` are
the arguments of each component. -/
noncomputable def assemble (f : Family) (kws : List Kw) (o : Obj) : Except Err (List Obj) :=
  if f = .kumaraswamy ∧ 1 < kws.length then .error .valueError
  else kws.mapM fun kw => parametrize f kw o

/-- pymc_io.py:40: the arrays are passed by position -/
noncomputable def byPosition (f : Family) (params : List (Option ℝ)) : Kw := dictOf (positional f) params

/-- pymc_io.py:31-40, the components of the new prior of a vector-valued variable.  The object handed to
`_parametrization` is the fitted one; what it held before does not matter (C74). -/
noncomputable def backfitVector (k : Kit) (f : Family) (wanted : ℕ) (slices : List (List ℝ)) (o : Obj) :
    Except Err (List Obj) := do
  let ps ← fitInTurn k f wanted slices o
  assemble f (ps.map (byPosition f)) o

/-- optimization.py:423-440: the components of the distribution fitted to a two-dimensional sample -/
noncomputable def fitRowsVector (k : Kit) (f : Family) (rows : List (List ℝ)) (o : Obj) : Except Err (List Obj) := do
  let ds ← fitRows k f o rows
  assemble f (ds.map Obj.paramsDict) o

end Verif.Refit
