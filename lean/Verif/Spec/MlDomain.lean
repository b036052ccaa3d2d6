import Verif.Basics

/-!
# Maximum likelihood over the domain of a family

Only the plain parameters the documentation of a family lists first, as inequalities.
-/

namespace Verif.Spec
open Verif

/-- admissible values of the first parametrisation of a family (by class name); the code keeps a distance `eps` from the
end of an open interval -/
def MlDomain : String → List ℝ → Prop
  | "AsymmetricLaplace", [kappa, _, b] => eps ≤ kappa ∧ eps ≤ b
  | "Bernoulli", [p] => eps ≤ p ∧ p ≤ 1
  | "Beta", [alpha, beta] => eps ≤ alpha ∧ eps ≤ beta
  | "Gamma", [alpha, beta] => eps ≤ alpha ∧ eps ≤ beta
  | "InverseGamma", [alpha, beta] => eps ≤ alpha ∧ eps ≤ beta
  | "HalfStudentT", [nu, sigma] => eps ≤ nu ∧ eps ≤ sigma
  | "StudentT", [nu, _, sigma] => eps ≤ nu ∧ eps ≤ sigma
  | "SkewNormal", [_, sigma, _] => eps ≤ sigma
  | "SkewStudentT", [_, sigma, a, b] => eps ≤ sigma ∧ eps ≤ a ∧ eps ≤ b
  | "NegativeBinomial", [mu, alpha] => eps ≤ mu ∧ eps ≤ alpha
  | "ZeroInflatedNegativeBinomial", [psi, mu, alpha] => eps ≤ psi ∧ psi ≤ 1 - eps ∧ eps ≤ mu ∧ eps ≤ alpha
  | "Rice", [nu, sigma] => eps ≤ nu ∧ eps ≤ sigma
  | "Wald", [mu, lam] => eps ≤ mu ∧ eps ≤ lam
  | _, _ => False

/-- negative log-likelihood -/
noncomputable def nll (logpdf : List ℝ → ℝ → ℝ) (sample params : List ℝ) : ℝ := -(sample.map (logpdf params)).sum

end Verif.Spec
