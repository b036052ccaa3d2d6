import Verif.Model.Delegate

/-!
# Which call to the numerical library each method stands for

The functions of `pytensor_distributions` take the point (or the level) first and the parameters of
the family after it, in the order the library documents.
-/

namespace Verif.Spec
open Verif.Delegate Verif.Param

/-- the module of the library that implements the family -/
def libModule : Family → String
  | .asymmetricLaplace => "asymmetriclaplace"
  | .bernoulli => "bernoulli"
  | .beta => "beta"
  | .betaScaled => "betascaled"
  | .exponential => "exponential"
  | .gamma => "gamma"
  | .halfNormal => "halfnormal"
  | .halfStudentT => "halfstudentt"
  | .inverseGamma => "inversegamma"
  | .kumaraswamy => "kumaraswamy"
  | .logitNormal => "logitnormal"
  | .negativeBinomial => "negativebinomial"
  | .normal => "normal"
  | .rice => "rice"
  | .skewNormal => "skewnormal"
  | .skewStudentT => "skew_studentt"
  | .studentT => "studentt"
  | .wald => "wald"
  | .ziNegativeBinomial => "zinegativebinomial"
  | .simple s => match s with
    | .betaBinomial => "betabinomial"
    | .binomial => "binomial"
    | .cauchy => "cauchy"
    | .chiSquared => "chisquared"
    | .discreteUniform => "discreteuniform"
    | .discreteWeibull => "discreteweibull"
    | .exGaussian => "exgaussian"
    | .geometric => "geometric"
    | .gumbel => "gumbel"
    | .halfCauchy => "halfcauchy"
    | .hyperGeometric => "hypergeometric"
    | .laplace => "laplace"
    | .logistic => "logistic"
    | .logLogistic => "loglogistic"
    | .logNormal => "lognormal"
    | .moyal => "moyal"
    | .pareto => "pareto"
    | .poisson => "poisson"
    | .triangular => "triangular"
    | .truncatedNormal => "truncatednormal"
    | .uniform => "uniform"
    | .vonMises => "vonmises"
    | .weibull => "weibull"
    | .ziBinomial => "zibinomial"
    | .ziPoisson => "zipoisson"

/-- the parameters of the library functions, in the library's order -/
def signature : Family → List Id
  | .asymmetricLaplace => [.mu, .b, .kappa]
  | .bernoulli => [.p]
  | .beta => [.alpha, .beta]
  | .betaScaled => [.alpha, .beta, .lower, .upper]
  | .exponential => [.lam]
  | .gamma => [.alpha, .beta]
  | .halfNormal => [.sigma]
  | .halfStudentT => [.nu, .sigma]
  | .inverseGamma => [.alpha, .beta]
  | .kumaraswamy => [.a, .b]
  | .logitNormal => [.mu, .sigma]
  | .negativeBinomial => [.n, .p]
  | .normal => [.mu, .sigma]
  | .rice => [.nu, .sigma]
  | .skewNormal => [.mu, .sigma, .alpha]
  | .skewStudentT => [.a, .b, .mu, .sigma]
  | .studentT => [.nu, .mu, .sigma]
  | .wald => [.mu, .lam]
  | .ziNegativeBinomial => [.psi, .n, .p]
  | .simple s => match s with
    | .betaBinomial => [.n, .alpha, .beta]
    | .binomial => [.n, .p]
    | .cauchy => [.alpha, .beta]
    | .chiSquared => [.nu]
    | .discreteUniform => [.lower, .upper]
    | .discreteWeibull => [.q, .beta]
    | .exGaussian => [.mu, .sigma, .nu]
    | .geometric => [.p]
    | .gumbel => [.mu, .beta]
    | .halfCauchy => [.beta]
    | .hyperGeometric => [.N, .k, .n]
    | .laplace => [.mu, .b]
    | .logistic => [.mu, .s]
    | .logLogistic => [.alpha, .beta]
    | .logNormal => [.mu, .sigma]
    | .moyal => [.mu, .sigma]
    | .pareto => [.alpha, .m]
    | .poisson => [.mu]
    | .triangular => [.lower, .c, .upper]
    | .truncatedNormal => [.mu, .sigma, .lower, .upper]
    | .uniform => [.lower, .upper]
    | .vonMises => [.mu, .kappa]
    | .weibull => [.alpha, .beta]
    | .ziBinomial => [.psi, .n, .p]
    | .ziPoisson => [.psi, .mu]

/-- the whole part of a number -/
noncomputable def wholePart (x : ℝ) : ℝ := if 0 ≤ x then (⌊x⌋ : ℝ) else -(⌊-x⌋ : ℝ)

/-- the numbers the library gets for the canonical parameters of the family: the same numbers, in
the order of the library, counts cut to whole numbers, and the (n, p) pair of the negative binomial
with mean `m` and shape `a` -/
noncomputable def passed : Family → List ℝ → List ℝ
  | .asymmetricLaplace, [k, m, b] => [m, b, k]
  | .negativeBinomial, [m, a] => [a, a / (m + a)]
  | .ziNegativeBinomial, [psi, m, a] => [psi, a, a / (m + a)]
  | .skewStudentT, [m, s, a, b] => [a, b, m, s]
  | .simple .betaBinomial, [a, b, n] => [wholePart n, a, b]
  | .simple .binomial, [n, p] => [wholePart n, p]
  | .simple .ziBinomial, [psi, n, p] => [psi, wholePart n, p]
  | .simple .hyperGeometric, [N, k, n] => [wholePart N, wholePart k, wholePart n]
  | .simple .discreteUniform, [l, u] => [(⌊l⌋ : ℝ), (⌈u⌉ : ℝ)]
  | _, vals => vals

/-- the leading argument of the method: a point, a level, or none -/
def leading : Meth → List Id
  | .pdf | .cdf | .logpdf | .sf | .logcdf | .logsf => [.x]
  | .ppf | .isf | .logisf => [.q]
  | _ => []

/-- the keyword arguments of the library function: only `rvs` has any, those of the caller -/
def keywords : Meth → List Id
  | .rvs => [.size, .random_state]
  | _ => []

/-- the call that method `m` of family `f` stands for -/
def theCall {α : Type} (f : Family) (m : Meth) (user : Id → α) (params : List α) : Call α :=
  ⟨libModule f, m, (leading m).map user ++ params, (keywords m).map fun i => (i, user i)⟩

end Verif.Spec
