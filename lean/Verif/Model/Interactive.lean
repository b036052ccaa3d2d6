import Verif.Model.Wrapper
import Verif.Model.Slider

/-!
# Start values and `plot_interactive`

internal/distribution_helper.py:204-253 (`init_vals`), distributions/distributions.py:1019-1134,
distributions/continuous_multivariate.py:373-488 and 865-982.
-/

namespace Verif.Interactive
open Verif Verif.Param

/-- distribution_helper.py:204-253: the values of the families, in the order of the dictionary -/
noncomputable def startVals : Family → List (String × ℝ)
  | .asymmetricLaplace => [("kappa", 1.3), ("mu", 0), ("b", 1)]
  | .beta => [("alpha", 2), ("beta", 2)]
  | .betaScaled => [("alpha", 2), ("beta", 2), ("lower", -1), ("upper", 2)]
  | .simple .cauchy => [("alpha", 0), ("beta", 1)]
  | .simple .chiSquared => [("nu", 5)]
  | .simple .exGaussian => [("mu", 0), ("sigma", 1), ("nu", 2)]
  | .exponential => [("lam", 1)]
  | .gamma => [("alpha", 2), ("beta", 5)]
  | .simple .gumbel => [("mu", 2), ("beta", 5)]
  | .simple .halfCauchy => [("beta", 1)]
  | .halfNormal => [("sigma", 1)]
  | .halfStudentT => [("nu", 7), ("sigma", 1)]
  | .inverseGamma => [("alpha", 3), ("beta", 5)]
  | .kumaraswamy => [("a", 2), ("b", 2)]
  | .simple .laplace => [("mu", 0), ("b", 1)]
  | .simple .logLogistic => [("alpha", 1), ("beta", 5)]
  | .simple .logistic => [("mu", 0), ("s", 1)]
  | .simple .logNormal => [("mu", 0), ("sigma", 0.5)]
  | .logitNormal => [("mu", 0), ("sigma", 0.5)]
  | .simple .moyal => [("mu", 0), ("sigma", 1)]
  | .normal => [("mu", 0), ("sigma", 1)]
  | .simple .pareto => [("alpha", 5), ("m", 2)]
  | .rice => [("nu", 2), ("sigma", 1)]
  | .skewNormal => [("mu", 0), ("sigma", 1), ("alpha", 6)]
  | .skewStudentT => [("mu", 0), ("sigma", 1), ("a", 2), ("b", 2)]
  | .studentT => [("nu", 7), ("mu", 0), ("sigma", 1)]
  | .simple .triangular => [("lower", -2), ("c", 0), ("upper", 2)]
  | .simple .truncatedNormal => [("mu", 0), ("sigma", 1), ("lower", -2), ("upper", 3)]
  | .simple .uniform => [("lower", 0), ("upper", 1)]
  | .simple .vonMises => [("mu", 0), ("kappa", 1)]
  | .wald => [("mu", 1), ("lam", 3)]
  | .simple .weibull => [("alpha", 5), ("beta", 2)]
  | .bernoulli => [("p", 0.5)]
  | .simple .betaBinomial => [("alpha", 2), ("beta", 2), ("n", 10)]
  | .simple .binomial => [("n", 5), ("p", 0.5)]
  | .simple .discreteUniform => [("lower", -2), ("upper", 2)]
  | .simple .discreteWeibull => [("q", 0.9), ("beta", 1.3)]
  | .simple .geometric => [("p", 0.5)]
  | .simple .hyperGeometric => [("N", 50), ("k", 10), ("n", 20)]
  | .negativeBinomial => [("mu", 5), ("alpha", 2)]
  | .simple .poisson => [("mu", 4.5)]
  | .simple .ziBinomial => [("psi", 0.7), ("n", 10), ("p", 0.5)]
  | .ziNegativeBinomial => [("psi", 0.7), ("mu", 5), ("alpha", 8)]
  | .simple .ziPoisson => [("psi", 0.8), ("mu", 4.5)]

/-- the keys of `init_vals` -/
def tableKeys : List String :=
  ["AsymmetricLaplace", "Beta", "BetaScaled", "Cauchy", "ChiSquared", "ExGaussian", "Exponential", "Gamma", "Gumbel",
    "HalfCauchy", "HalfNormal", "HalfStudentT", "InverseGamma", "Kumaraswamy", "Laplace", "LogLogistic", "Logistic",
    "LogNormal", "LogitNormal", "Moyal", "Normal", "Pareto", "Rice", "SkewNormal", "SkewStudentT", "StudentT",
    "Triangular", "TruncatedNormal", "Uniform", "VonMises", "Wald", "Weibull", "Bernoulli", "BetaBinomial", "Binomial",
    "Categorical", "DiscreteUniform", "DiscreteWeibull", "Geometric", "HyperGeometric", "NegativeBinomial", "Poisson",
    "ZeroInflatedBinomial", "ZeroInflatedNegativeBinomial", "ZeroInflatedPoisson", "Truncated", "Censored", "Dirichlet"]

/-- `params_support` of the first parametrisation: the lines `self.params_support = …` of all families; `N` is the attribute
of HyperGeometric (hypergeometric.py:58, 66) -/
noncomputable def bounds (N : ℝ) : Family → List (Option ℝ × Option ℝ)
  | .asymmetricLaplace => [(some eps, none), (none, none), (some eps, none)]
  | .betaScaled => [(some eps, none), (some eps, none), (none, none), (none, none)]
  | .simple .cauchy | .simple .gumbel | .simple .laplace | .simple .logistic | .simple .logNormal | .logitNormal
  | .simple .moyal | .normal => [(none, none), (some eps, none)]
  | .simple .chiSquared | .exponential | .simple .halfCauchy | .halfNormal | .simple .poisson => [(some eps, none)]
  | .simple .exGaussian => [(none, none), (some eps, none), (some 1e-4, none)]
  | .beta | .gamma | .halfStudentT | .inverseGamma | .kumaraswamy | .simple .logLogistic | .simple .pareto | .rice | .wald
  | .simple .weibull | .negativeBinomial => [(some eps, none), (some eps, none)]
  | .skewNormal => [(none, none), (some eps, none), (none, none)]
  | .skewStudentT => [(none, none), (some eps, none), (some eps, none), (some eps, none)]
  | .studentT => [(some eps, none), (none, none), (some eps, none)]
  | .simple .triangular => [(none, none), (none, none), (none, none)]
  | .simple .truncatedNormal => [(none, none), (some eps, none), (none, none), (none, none)]
  | .simple .uniform | .simple .discreteUniform => [(none, none), (none, none)]
  | .simple .vonMises => [(some (-Real.pi), some Real.pi), (some eps, none)]
  | .bernoulli | .simple .geometric => [(some eps, some 1)]
  | .simple .betaBinomial => [(some eps, none), (some eps, none), (some eps, none)]
  | .simple .binomial => [(some eps, none), (some eps, some (1 - eps))]
  | .simple .discreteWeibull => [(some eps, some (1 - eps)), (some eps, none)]
  | .simple .hyperGeometric => [(some eps, none), (some eps, some N), (some eps, some N)]
  | .simple .ziBinomial => [(some eps, some (1 - eps)), (some eps, none), (some eps, some (1 - eps))]
  | .ziNegativeBinomial => [(some eps, some (1 - eps)), (some eps, none), (some eps, none)]
  | .simple .ziPoisson => [(some eps, some (1 - eps)), (some eps, none)]

/-- keyword arguments from a dictionary -/
def kwOf (l : List (String × ℝ)) : Kw := fun k => l.lookup k

/-- distributions.py:1060-1067 for a family, agnostic.py:153 -/
noncomputable def startObj (f : Family) : Except Err Obj := construct f (kwOf (startVals f))

/-- distributions.py:1061-1064: `vals.update(...)` replaces the bounds of the wrapper by those of the base, if it has any;
`lower` and `upper` then go to the wrapper -/
noncomputable def startWrapped (k : Wrapper.Kind) (f : Family) (base : Obj) : Except Err Wrapper.Wrapped :=
  let own : String → Option EReal := fun n =>
    if n = "lower" then some (((startVals f).lookup "lower").getD (-10) : ℝ)
    else if n = "upper" then some (((startVals f).lookup "upper").getD 10 : ℝ)
    else none
  let kw := (startVals f).filter fun p => p.1 ≠ "lower" ∧ p.1 ≠ "upper"
  Wrapper.wrapParam k f own (kw.map fun p => (p.1, some p.2)) base false

/-! ## What is drawn -/

inductive Lim
  | auto | both | tuple | other
  deriving DecidableEq

inductive Drawn
  | pdf | cdf | ppf
  deriving DecidableEq

/-- distributions.py:1069-1080 and 1126-1129 (plot_helper_multivariate.py:135-145 and 193-196): limits that are used but were
never assigned are an UnboundLocalError -/
def limitsOk (lim : Lim) (d : Drawn) : Bool :=
  let x := lim = .both ∨ lim = .tuple
  let y := lim = .tuple ∨ (lim = .both ∧ d ≠ .cdf)
  lim = .auto ∨ ((d = .ppf ∨ x) ∧ (d = .cdf ∨ y))

/-- distributions.py:1096-1129: the last lines use `ax`, assigned only for the three kinds -/
def univariate (kind : String) (lim : Lim) : Except Err (Option Drawn) :=
  let d : Option Drawn := if kind = "pdf" then some .pdf else if kind = "cdf" then some .cdf
    else if kind = "ppf" then some .ppf else none
  match d with
  | none => if lim = .auto then .ok none else .error .nameError
  | some d => if limitsOk lim d then .ok (some d) else .error .nameError

/-- continuous_multivariate.py:441-486 -/
def dirichlet (kind : String) (lim : Lim) : Except Err (Option Drawn) :=
  let d : Option Drawn := if kind = "pdf" then some .pdf else if kind = "cdf" then some .cdf
    else if kind = "ppf" then some .cdf else none
  match d with
  | none => .ok none
  | some d => if limitsOk lim d then .ok (some d) else .error .nameError

/-- continuous_multivariate.py:934-980 -/
def mvnormal (kind : String) (lim : Lim) : Except Err (Option Drawn) :=
  let d : Option Drawn := if kind = "pdf" then some .pdf else if kind = "cdf" then some .cdf
    else if kind = "ppf" then some .ppf else none
  match d with
  | none => .ok none
  | some d => if limitsOk lim d then .ok (some d) else .error .nameError

/-! ## Categorical -/

/-- the part of a name before the first underscore -/
def beforeUnderscore (s : List Char) : List Char := s.takeWhile (· ≠ '_')

/-- distributions.py:1083-1103: the keyword passed to `_parametrization` and the values, `none` when nothing is drawn.  The
sliders are called name_0, name_1, …; any keyword other than `p` and `logit_p` is a TypeError. -/
noncomputable def categorical (name : List Char) (values : List ℝ) : Except Err (Option (List Char × List ℝ)) :=
  let key := beforeUnderscore (name ++ "_0".toList)
  if values.sum > 1 then .ok none
  else if key = "p".toList ∨ key = "logit_p".toList then .ok (some (key, values))
  else .error .typeError

end Verif.Interactive
