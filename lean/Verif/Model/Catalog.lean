import Verif.Basics
import Mathlib.Data.Nat.Notation

/-!
# The catalog (preliz/distributions/catalog.py)

The tables are copied from the sources.
-/

namespace Verif.Catalog

/-- One end of the support of a distribution object without parameters.  `fin b` is a finite end, `b` says
whether it is negative; `missing` is `None`. -/
inductive Bound
  | negInf | fin (negative : Bool) | posInf | missing
  deriving DecidableEq, Repr

/-- a distribution object without parameters: name, number of parameter names, ends of the support -/
structure Entry where
  name : String
  numParams : ℕ
  lower : Bound
  upper : Bound
  deriving DecidableEq, Repr

/-- distributions/__init__.py:52-85, with the supports set by each constructor -/
def allContinuous : List Entry :=
  [⟨"AsymmetricLaplace", 3, .negInf, .posInf⟩,
   ⟨"Beta", 2, .fin false, .fin false⟩,
   ⟨"BetaScaled", 4, .fin false, .fin false⟩,
   ⟨"Cauchy", 2, .negInf, .posInf⟩,
   ⟨"ChiSquared", 1, .fin false, .posInf⟩,
   ⟨"ExGaussian", 3, .negInf, .posInf⟩,
   ⟨"Exponential", 1, .fin false, .posInf⟩,
   ⟨"Gamma", 2, .fin false, .posInf⟩,
   ⟨"Gumbel", 2, .negInf, .posInf⟩,
   ⟨"HalfCauchy", 1, .fin false, .posInf⟩,
   ⟨"HalfNormal", 1, .fin false, .posInf⟩,
   ⟨"HalfStudentT", 2, .fin false, .posInf⟩,
   ⟨"InverseGamma", 2, .fin false, .posInf⟩,
   ⟨"Kumaraswamy", 2, .fin false, .fin false⟩,
   ⟨"Laplace", 2, .negInf, .posInf⟩,
   ⟨"Logistic", 2, .negInf, .posInf⟩,
   ⟨"LogLogistic", 2, .fin false, .posInf⟩,
   ⟨"LogNormal", 2, .fin false, .posInf⟩,
   ⟨"LogitNormal", 2, .fin false, .fin false⟩,
   ⟨"Moyal", 2, .negInf, .posInf⟩,
   ⟨"Normal", 2, .negInf, .posInf⟩,
   ⟨"Pareto", 2, .fin false, .posInf⟩,
   ⟨"Rice", 2, .fin false, .posInf⟩,
   ⟨"SkewNormal", 3, .negInf, .posInf⟩,
   ⟨"SkewStudentT", 4, .negInf, .posInf⟩,
   ⟨"StudentT", 3, .negInf, .posInf⟩,
   ⟨"Triangular", 3, .negInf, .posInf⟩,
   ⟨"TruncatedNormal", 4, .negInf, .posInf⟩,
   ⟨"Uniform", 2, .negInf, .posInf⟩,
   ⟨"VonMises", 2, .fin true, .fin false⟩,
   ⟨"Wald", 2, .fin false, .posInf⟩,
   ⟨"Weibull", 2, .fin false, .posInf⟩]

/-- distributions/__init__.py:86-100 -/
def allDiscrete : List Entry :=
  [⟨"Bernoulli", 1, .fin false, .fin false⟩,
   ⟨"BetaBinomial", 3, .fin false, .posInf⟩,
   ⟨"Binomial", 2, .fin false, .posInf⟩,
   ⟨"Categorical", 1, .missing, .missing⟩,
   ⟨"DiscreteUniform", 2, .negInf, .posInf⟩,
   ⟨"DiscreteWeibull", 2, .fin false, .posInf⟩,
   ⟨"Geometric", 1, .fin false, .posInf⟩,
   ⟨"HyperGeometric", 3, .fin false, .posInf⟩,
   ⟨"NegativeBinomial", 2, .fin false, .posInf⟩,
   ⟨"Poisson", 1, .fin false, .posInf⟩,
   ⟨"ZeroInflatedBinomial", 3, .fin false, .posInf⟩,
   ⟨"ZeroInflatedNegativeBinomial", 3, .fin false, .posInf⟩,
   ⟨"ZeroInflatedPoisson", 2, .fin false, .posInf⟩]

/-- distributions/__init__.py:102 -/
def allMultivariate : List String := ["Dirichlet", "MvNormal"]

/-- distributions/__init__.py:104 -/
def allModifiers : List String := ["Mixture", "Truncated", "Censored", "Hurdle"]

/-- the names `_get_dist_class` finds, catalog.py:187-188: the classes of the package -/
def existing : List String :=
  allContinuous.map Entry.name ++ allDiscrete.map Entry.name ++ allMultivariate ++ allModifiers

/-- the groups given by class, catalog.py:16-18 -/
def classGroups : List (String × List String) :=
  [("continuous", allContinuous.map Entry.name), ("discrete", allDiscrete.map Entry.name),
   ("continuous_multivariate", allMultivariate)]

/-- the groups given by name, catalog.py:19-184 -/
def nameGroups : List (String × List String) :=
  [("unbounded", ["AsymmetricLaplace", "Cauchy", "ExGaussian", "Gumbel", "Laplace", "Logistic",
     "Moyal", "Normal", "SkewNormal", "SkewStudentT", "StudentT"]),
   ("positive", ["ChiSquared", "Exponential", "Gamma", "HalfCauchy", "HalfNormal", "HalfStudentT",
     "InverseGamma", "LogLogistic", "LogNormal", "Pareto", "Rice", "Wald", "Weibull"]),
   ("bounded", ["Beta", "BetaScaled", "Kumaraswamy", "LogitNormal", "Triangular", "TruncatedNormal",
     "Uniform", "VonMises"]),
   ("non_negative_continuous", ["ChiSquared", "Exponential", "Gamma", "HalfCauchy", "HalfNormal",
     "HalfStudentT", "InverseGamma", "LogLogistic", "LogitNormal", "LogNormal", "Pareto", "Rice",
     "ScaledInverseChiSquared", "Wald", "Weibull"]),
   ("non_negative_discrete", ["Bernoulli", "Binomial", "DiscreteWeibull", "Geometric",
     "NegativeBinomial", "Poisson", "ZeroInflatedBinomial", "ZeroInflatedNegativeBinomial",
     "ZeroInflatedPoisson"]),
   ("bounded_discrete", ["BetaBinomial", "Binomial", "Categorical", "DiscreteUniform",
     "Hypergeometric", "ZeroInflatedBinomial"]),
   ("multivariate", ["Dirichlet", "MultivariateNormal"]),
   ("symmetric", ["Beta", "BetaScaled", "Cauchy", "DiscreteUniform", "Laplace", "Logistic",
     "MultivariateNormal", "Normal", "StudentT", "Uniform", "VonMises"]),
   ("asymmetric", ["AsymmetricLaplace", "DiscreteWeibull", "ExGaussian", "Exponential", "Gamma",
     "Geometric", "Gumbel", "InverseGamma", "Kumaraswamy", "LogLogistic", "LogitNormal", "Moyal",
     "Pareto", "Rice", "ScaledInverseChiSquared", "SkewNormal", "SkewStudentT", "Wald", "Weibull"]),
   ("heavy_tailed", ["Cauchy", "HalfCauchy", "HalfStudentT", "InverseGamma", "LogLogistic",
     "LogNormal", "Pareto", "SkewStudentT", "StudentT"]),
   ("light_tailed", ["AsymmetricLaplace", "ChiSquared", "ExGaussian", "Exponential", "Gamma",
     "HalfNormal", "Laplace", "Logistic", "Moyal", "Normal", "Rice", "SkewNormal", "Triangular",
     "TruncatedNormal", "Wald", "Weibull"]),
   ("zero_inflated", ["ZeroInflatedBinomial", "ZeroInflatedNegativeBinomial", "ZeroInflatedPoisson"]),
   ("extreme_value", ["Gumbel", "LogLogistic"]),
   ("circular", ["VonMises"]),
   ("binary", ["Bernoulli", "Binomial"]),
   ("count", ["DiscreteWeibull", "Geometric", "NegativeBinomial", "Poisson",
     "ZeroInflatedNegativeBinomial", "ZeroInflatedPoisson"])]

/-- the categories in the documentation of `get`, catalog.py:262-283 -/
def documented : List String :=
  ["continuous", "discrete", "continuous_multivariate", "positive", "unbounded", "bounded",
   "non_negative", "non_negative_continuous", "non_negative_discrete", "bounded_discrete",
   "multivariate", "symmetric", "asymmetric", "heavy_tailed", "light_tailed", "zero_inflated",
   "extreme_value", "circular", "binary", "count"]

/-- catalog.py:290-306: instances, represented by their names.  `_get_dist_class` raises `AttributeError`
for a name that does not exist. -/
def getInstances (category : String) : Except Err (List String) :=
  match classGroups.lookup category with
  | some group => .ok group
  | none =>
    match nameGroups.lookup category with
    | none => .error .valueError
    | some group => if group.all existing.contains then .ok group else .error .attributeError

/-- catalog.py:308-317 -/
def getNames (category : String) : Except Err (List String) :=
  match classGroups.lookup category with
  | some group => .ok group
  | none =>
    match nameGroups.lookup category with
    | none => .error .valueError
    | some group => .ok group

/-- catalog.py:388-400 -/
def matchesSupport (d : Entry) (support : String) : Bool :=
  if d.lower = .missing ∨ d.upper = .missing then false
  else if support = "positive" then (d.lower = .fin false ∨ d.lower = .posInf) ∧ d.upper = .posInf
  else if support = "bounded" then d.lower ≠ .negInf ∧ d.upper ≠ .posInf
  else if support = "unbounded" then d.lower = .negInf ∧ d.upper = .posInf
  else if support = "non_negative" then d.lower = .fin false ∨ d.lower = .posInf
  else true

/-- catalog.py:366-371 -/
def candidates (kind : Option String) : List Entry :=
  if kind = some "continuous" then allContinuous
  else if kind = some "discrete" then allDiscrete
  else allContinuous ++ allDiscrete

/-- catalog.py:373-383, the loop -/
def findLoop (numParams : Option ℕ) (support : Option String) : List Entry → List Entry
  | [] => []
  | d :: rest =>
    if (∃ n, numParams = some n ∧ d.numParams ≠ n) then findLoop numParams support rest
    else if (∃ s, support = some s ∧ matchesSupport d s = false) then findLoop numParams support rest
    else d :: findLoop numParams support rest

/-- catalog.py:347-385 -/
def find (kind : Option String) (numParams : Option ℕ) (support : Option String) : List Entry :=
  findLoop numParams support (candidates kind)

end Verif.Catalog
