import Verif.Spec.Param
import Verif.Model.Moments

/-!
# Textbook means and variances (C08–C10)

Independent of the code.  `Law f mean var o` reads the canonical attributes of the object and says
that they are in the family's parameter space and that the textbook mean and variance are the given
ones.
-/

namespace Verif.Spec
open Verif Verif.Param

/-- textbook mean and variance as functions of the canonical parameters -/
noncomputable def tMean : MomFam → List ℝ → ℝ
  | .asymmetricLaplace, [k, m, b] => m + b * (1 / k - k)
  | .bernoulli, [p] => p
  | .beta, [a, b] => betaMean a b
  | .betaScaled, [a, b, l, u] => l + (u - l) * betaMean a b
  | .chiSquared, [n] => n
  | .discreteUniform, [l, u] => (l + u) / 2
  | .exponential, [l] => 1 / l
  | .gamma, [a, b] => gammaMean a b
  | .geometric, [p] => 1 / p
  | .gumbel, [m, b] => m + b * Real.eulerMascheroniConstant
  | .halfNormal, [s] => s * Real.sqrt (2 / Real.pi)
  | .inverseGamma, [a, b] => invGammaMean a b
  | .laplace, [m, _] => m
  | .logistic, [m, _] => m
  | .logNormal, [m, s] => Real.exp (m + s ^ 2 / 2)
  | .moyal, [m, s] => m + s * (Real.eulerMascheroniConstant + Real.log 2)
  | .normal, [m, _] => m
  | .pareto, [a, m] => a * m / (a - 1)
  | .poisson, [m] => m
  | .studentT, [_, m, _] => m
  | .triangular, [l, c, u] => (l + c + u) / 3
  | .uniform, [l, u] => (l + u) / 2
  | .wald, [m, _] => m
  | _, _ => 0

noncomputable def tVar : MomFam → List ℝ → ℝ
  | .asymmetricLaplace, [k, _, b] => b ^ 2 * (1 + k ^ 4) / k ^ 2
  | .bernoulli, [p] => p * (1 - p)
  | .beta, [a, b] => betaVar a b
  | .betaScaled, [a, b, l, u] => (u - l) ^ 2 * betaVar a b
  | .chiSquared, [n] => 2 * n
  | .discreteUniform, [l, u] => ((u - l + 1) ^ 2 - 1) / 12
  | .exponential, [l] => 1 / l ^ 2
  | .gamma, [a, b] => gammaVar a b
  | .geometric, [p] => (1 - p) / p ^ 2
  | .gumbel, [_, b] => Real.pi ^ 2 / 6 * b ^ 2
  | .halfNormal, [s] => s ^ 2 * (1 - 2 / Real.pi)
  | .inverseGamma, [a, b] => invGammaVar a b
  | .laplace, [_, b] => 2 * b ^ 2
  | .logistic, [_, s] => s ^ 2 * Real.pi ^ 2 / 3
  | .logNormal, [m, s] => (Real.exp (s ^ 2) - 1) * Real.exp (2 * m + s ^ 2)
  | .moyal, [_, s] => Real.pi ^ 2 / 2 * s ^ 2
  | .normal, [_, s] => s ^ 2
  | .pareto, [a, m] => m ^ 2 * a / ((a - 1) ^ 2 * (a - 2))
  | .poisson, [m] => m
  | .studentT, [n, _, s] => s ^ 2 * n / (n - 2)
  | .triangular, [l, c, u] => (l ^ 2 + c ^ 2 + u ^ 2 - l * c - l * u - c * u) / 18
  | .uniform, [l, u] => (u - l) ^ 2 / 12
  | .wald, [m, l] => m ^ 3 / l
  | _, _ => 0

/-- names of the canonical parameters -/
def canonNames : MomFam → List String
  | .asymmetricLaplace => ["kappa", "mu", "b"]
  | .bernoulli => ["p"]
  | .beta => ["alpha", "beta"]
  | .betaScaled => ["alpha", "beta", "lower", "upper"]
  | .chiSquared => ["nu"]
  | .discreteUniform => ["lower", "upper"]
  | .exponential => ["lam"]
  | .gamma => ["alpha", "beta"]
  | .geometric => ["p"]
  | .gumbel => ["mu", "beta"]
  | .halfNormal => ["sigma"]
  | .inverseGamma => ["alpha", "beta"]
  | .laplace => ["mu", "b"]
  | .logistic => ["mu", "s"]
  | .logNormal => ["mu", "sigma"]
  | .moyal => ["mu", "sigma"]
  | .normal => ["mu", "sigma"]
  | .pareto => ["alpha", "m"]
  | .poisson => ["mu"]
  | .studentT => ["nu", "mu", "sigma"]
  | .triangular => ["lower", "c", "upper"]
  | .uniform => ["lower", "upper"]
  | .wald => ["mu", "lam"]

/-- admissible canonical parameters (for which the law exists; the variance is finite when
`HasVar`) -/
def Admissible : MomFam → List ℝ → Prop
  | .asymmetricLaplace, [k, _, b] => 0 < k ∧ 0 < b
  | .bernoulli, [p] => 0 ≤ p ∧ p ≤ 1
  | .beta, [a, b] => 0 < a ∧ 0 < b
  | .betaScaled, [a, b, l, u] => 0 < a ∧ 0 < b ∧ l < u
  | .chiSquared, [n] => 0 < n
  | .discreteUniform, [l, u] => (∃ i j : ℤ, l = i ∧ u = j) ∧ l ≤ u
  | .exponential, [l] => 0 < l
  | .gamma, [a, b] => 0 < a ∧ 0 < b
  | .geometric, [p] => 0 < p ∧ p ≤ 1
  | .gumbel, [_, b] => 0 < b
  | .halfNormal, [s] => 0 < s
  | .inverseGamma, [a, b] => 0 < a ∧ 0 < b
  | .laplace, [_, b] => 0 < b
  | .logistic, [_, s] => 0 < s
  | .logNormal, [_, s] => 0 < s
  | .moyal, [_, s] => 0 < s
  | .normal, [_, s] => 0 < s
  | .pareto, [a, m] => 0 < a ∧ 0 < m
  | .poisson, [m] => 0 < m
  | .studentT, [n, _, s] => 0 < n ∧ 0 < s
  | .triangular, [l, c, u] => l ≤ c ∧ c ≤ u ∧ l < u
  | .uniform, [l, u] => l < u
  | .wald, [m, l] => 0 < m ∧ 0 < l
  | _, _ => False

/-- parameters for which the textbook variance is finite -/
def HasVar : MomFam → List ℝ → Prop
  | .inverseGamma, [a, _] => 2 < a
  | .pareto, [a, _] => 2 < a
  | .studentT, [n, _, _] => 2 < n
  | _, _ => True

/-- the object is frozen and its canonical attributes are `vals` -/
def Holds (f : MomFam) (vals : List ℝ) (o : Obj) : Prop :=
  o.frozen = true ∧ (canonNames f).map o.attr = vals.map some

/-- frozen, admissible, with the requested mean and standard deviation -/
def Matches (f : MomFam) (mean sigma : ℝ) (o : Obj) : Prop :=
  ∃ vals, Holds f vals o ∧ Admissible f vals ∧ HasVar f vals ∧ tMean f vals = mean ∧
    tVar f vals = sigma ^ 2

end Verif.Spec
