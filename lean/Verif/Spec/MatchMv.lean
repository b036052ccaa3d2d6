import Verif.Spec.Law
import Verif.Spec.Moments
import Verif.Spec.HalfScale
import Mathlib.NumberTheory.Harmonic.EulerMascheroni

/-!
# Distributions with a given mean and variance (C124)
-/

namespace Verif.Spec
open MeasureTheory Verif.Param

/-- families with two free parameters (the shape of StudentT and AsymmetricLaplace is given) -/
inductive MvFam
  | normal
  | laplace
  | logistic
  | gumbel
  | moyal
  | studentT (nu : ℝ)
  | asymmetricLaplace (kappa : ℝ)
  | uniform
  | gamma
  | inverseGamma
  | logNormal
  | pareto
  | wald
  | beta

/-- the family with a documented law and textbook moments -/
def MvFam.mom : MvFam → MomFam
  | .normal => .normal
  | .laplace => .laplace
  | .logistic => .logistic
  | .gumbel => .gumbel
  | .moyal => .moyal
  | .studentT _ => .studentT
  | .asymmetricLaplace _ => .asymmetricLaplace
  | .uniform => .uniform
  | .gamma => .gamma
  | .inverseGamma => .inverseGamma
  | .logNormal => .logNormal
  | .pareto => .pareto
  | .wald => .wald
  | .beta => .beta

/-- all parameters, in the order of the constructor -/
def MvFam.vals : MvFam → ℝ → ℝ → List ℝ
  | .studentT n, a, b => [n, a, b]
  | .asymmetricLaplace k, a, b => [k, a, b]
  | _, a, b => [a, b]

/-- the arguments the user gives: none, or the shape -/
noncomputable def MvFam.given : MvFam → Kw
  | .studentT n => fun k => if k = "nu" then some n else none
  | .asymmetricLaplace c => fun k => if k = "kappa" then some c else none
  | _ => fun _ => none

/-- the shape given is one for which the variance exists -/
def MvFam.Ok : MvFam → Prop
  | .studentT n => 2 < n
  | .asymmetricLaplace k => 0 < k
  | _ => True

/-- the mean and the variance of some distribution of the family -/
def MvFam.Reach : MvFam → ℝ → ℝ → Prop
  | .gamma, m, v => 0 < m ∧ 0 < v
  | .inverseGamma, m, v => 0 < m ∧ 0 < v
  | .logNormal, m, v => 0 < m ∧ 0 < v
  | .pareto, m, v => 0 < m ∧ 0 < v
  | .wald, m, v => 0 < m ∧ 0 < v
  | .beta, m, v => 0 < v ∧ v < m * (1 - m)
  | _, _, v => 0 < v

/-- the parameters of the distribution with mean `m` and variance `v` -/
noncomputable def MvFam.fitted : MvFam → ℝ → ℝ → ℝ × ℝ
  | .normal, m, v => (m, √v)
  | .laplace, m, v => (m, √(v / 2))
  | .logistic, m, v => (m, √(3 * v) / Real.pi)
  | .gumbel, m, v => (m - √(6 * v) / Real.pi * Real.eulerMascheroniConstant, √(6 * v) / Real.pi)
  | .moyal, m, v => (m - √(2 * v) / Real.pi * (Real.eulerMascheroniConstant + Real.log 2), √(2 * v) / Real.pi)
  | .studentT n, m, v => (m, √(v * (n - 2) / n))
  | .asymmetricLaplace k, m, v => (m - √(v * k ^ 2 / (1 + k ^ 4)) * (1 / k - k), √(v * k ^ 2 / (1 + k ^ 4)))
  | .uniform, m, v => (m - √(3 * v), m + √(3 * v))
  | .gamma, m, v => (m ^ 2 / v, m / v)
  | .inverseGamma, m, v => (m ^ 2 / v + 2, m * (m ^ 2 / v + 1))
  | .logNormal, m, v => (Real.log m - Real.log (1 + v / m ^ 2) / 2, √(Real.log (1 + v / m ^ 2)))
  | .pareto, m, v => (1 + √(1 + m ^ 2 / v), m * √(1 + m ^ 2 / v) / (1 + √(1 + m ^ 2 / v)))
  | .wald, m, v => (m, m ^ 3 / v)
  | .beta, m, v => (m * (m * (1 - m) / v - 1), (1 - m) * (m * (1 - m) / v - 1))

/-- normal.py:78, laplace.py:55, logistic.py:55, gumbel.py:60, moyal.py:62, studentt.py:85, asymmetric_laplace.py:77,
uniform.py:51, gamma.py:82, inversegamma.py:80, lognormal.py:63, pareto.py:54, wald.py:73, beta.py:87 -/
noncomputable def MvFam.box : MvFam → Box
  | .studentT _ => [((eps : ℝ), ⊤), (⊥, ⊤), ((eps : ℝ), ⊤)]
  | .asymmetricLaplace _ => [((eps : ℝ), ⊤), (⊥, ⊤), ((eps : ℝ), ⊤)]
  | .uniform => [(⊥, ⊤), (⊥, ⊤)]
  | .gamma => [((eps : ℝ), ⊤), ((eps : ℝ), ⊤)]
  | .inverseGamma => [((eps : ℝ), ⊤), ((eps : ℝ), ⊤)]
  | .pareto => [((eps : ℝ), ⊤), ((eps : ℝ), ⊤)]
  | .wald => [((eps : ℝ), ⊤), ((eps : ℝ), ⊤)]
  | .beta => [((eps : ℝ), ⊤), ((eps : ℝ), ⊤)]
  | _ => [(⊥, ⊤), ((eps : ℝ), ⊤)]

/-- the bounds of the two free parameters -/
noncomputable def MvFam.free : MvFam → Box
  | .studentT _ => [(⊥, ⊤), ((eps : ℝ), ⊤)]
  | .asymmetricLaplace _ => [(⊥, ⊤), ((eps : ℝ), ⊤)]
  | F => F.box

/-- families with one parameter, which is the mean, and a variance proportional to it -/
inductive LineFam
  | poisson
  | chiSquared

def LineFam.mom : LineFam → MomFam
  | .poisson => .poisson
  | .chiSquared => .chiSquared

/-- the variance over the mean -/
def LineFam.ratio : LineFam → ℝ
  | .poisson => 1
  | .chiSquared => 2

/-- the half-line families with a variance -/
def HalfFam.HasMv : HalfFam → Prop
  | .halfCauchy => False
  | .halfStudentT n => 2 < n
  | _ => True

/-- the mean with scale one -/
noncomputable def HalfFam.unitMean : HalfFam → ℝ
  | .exponential => 1
  | .halfNormal => √(2 / Real.pi)
  | .halfCauchy => 0
  | .halfStudentT n => halfStudentMean n 1

/-- the variance with scale one -/
noncomputable def HalfFam.unitVar : HalfFam → ℝ
  | .exponential => 1
  | .halfNormal => 1 - 2 / Real.pi
  | .halfCauchy => 0
  | .halfStudentT n => halfStudentVar n 1

end Verif.Spec
