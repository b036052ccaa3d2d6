import Verif.Model.Param

/-!
# What the documentation promises about constructor arguments

Independent of the `_parametrization` code: the parametrisations listed in the class docstrings (and
in the `parametrizations` class attributes), and the admissible range of each argument.
-/

namespace Verif.Spec

open Verif.Param

/-- One documented way to specify a family: arguments that may be given together, and those that
are needed (the others have documented defaults). -/
structure Way where
  allowed : List String
  required : List String

def Way.plain (l : List String) : Way := ⟨l, l⟩

/-- The documented parametrisations. -/
def ways : Family → List Way
  | .simple .betaBinomial => [.plain ["alpha", "beta", "n"]]
  | .simple .binomial => [.plain ["n", "p"]]
  | .simple .cauchy => [.plain ["alpha", "beta"]]
  | .simple .chiSquared => [.plain ["nu"]]
  | .simple .discreteUniform => [.plain ["lower", "upper"]]
  | .simple .discreteWeibull => [.plain ["q", "beta"]]
  | .simple .exGaussian => [.plain ["mu", "sigma", "nu"]]
  | .simple .geometric => [.plain ["p"]]
  | .simple .gumbel => [.plain ["mu", "beta"]]
  | .simple .halfCauchy => [.plain ["beta"]]
  | .simple .hyperGeometric => [.plain ["N", "k", "n"]]
  | .simple .laplace => [.plain ["mu", "b"]]
  | .simple .logistic => [.plain ["mu", "s"]]
  | .simple .logLogistic => [.plain ["alpha", "beta"]]
  | .simple .logNormal => [.plain ["mu", "sigma"]]
  | .simple .moyal => [.plain ["mu", "sigma"]]
  | .simple .pareto => [.plain ["alpha", "m"]]
  | .simple .poisson => [.plain ["mu"]]
  | .simple .triangular => [.plain ["lower", "c", "upper"]]
  | .simple .truncatedNormal => [.plain ["mu", "sigma", "lower", "upper"]]
  | .simple .uniform => [.plain ["lower", "upper"]]
  | .simple .vonMises => [.plain ["mu", "kappa"]]
  | .simple .weibull => [.plain ["alpha", "beta"]]
  | .simple .ziBinomial => [.plain ["psi", "n", "p"]]
  | .simple .ziPoisson => [.plain ["psi", "mu"]]
  | .asymmetricLaplace => [.plain ["kappa", "mu", "b"], .plain ["q", "mu", "b"]]
  | .bernoulli => [.plain ["p"], .plain ["logit_p"]]
  | .beta => [.plain ["alpha", "beta"], .plain ["mu", "sigma"], .plain ["mu", "nu"]]
  | .betaScaled => [⟨["alpha", "beta", "lower", "upper"], ["alpha", "beta"]⟩]
  | .exponential => [.plain ["lam"], .plain ["scale"]]
  | .gamma => [.plain ["alpha", "beta"], .plain ["mu", "sigma"]]
  | .halfNormal => [.plain ["sigma"], .plain ["tau"]]
  | .halfStudentT => [.plain ["nu", "sigma"], .plain ["nu", "lam"]]
  | .inverseGamma => [.plain ["alpha", "beta"], .plain ["mu", "sigma"]]
  | .kumaraswamy => [.plain ["a", "b"]]
  | .logitNormal => [.plain ["mu", "sigma"], .plain ["mu", "tau"]]
  | .negativeBinomial => [.plain ["mu", "alpha"], .plain ["p", "n"]]
  | .normal => [.plain ["mu", "sigma"], .plain ["mu", "tau"]]
  | .rice => [.plain ["nu", "sigma"], .plain ["b", "sigma"]]
  | .skewNormal => [.plain ["mu", "sigma", "alpha"], .plain ["mu", "tau", "alpha"]]
  | .skewStudentT => [.plain ["mu", "sigma", "a", "b"], .plain ["mu", "lam", "a", "b"]]
  | .studentT => [.plain ["nu", "mu", "sigma"], .plain ["nu", "mu", "lam"]]
  | .wald => [.plain ["mu", "lam"], .plain ["mu", "phi"], .plain ["lam", "phi"]]
  | .ziNegativeBinomial => [.plain ["psi", "mu", "alpha"], .plain ["psi", "p", "n"]]

/-- all constructor arguments of a family -/
def args (f : Family) : List String := (ways f).flatMap Way.allowed

/-- the given arguments fit in one documented parametrisation -/
def Compatible (f : Family) (kw : Kw) : Prop :=
  ∃ w ∈ ways f, ∀ k ∈ args f, (kw k).isSome → k ∈ w.allowed

/-- the given arguments determine the distribution -/
def Complete (f : Family) (kw : Kw) : Prop :=
  ∃ w ∈ ways f, ∀ k ∈ w.required, (kw k).isSome

/-- documented range of the arguments that are converted at construction -/
def inRange : Family → String → ℝ → Prop
  | .beta, "mu", x => 0 < x ∧ x < 1
  | .beta, _, x => 0 < x
  | .gamma, _, x => 0 < x
  | .inverseGamma, _, x => 0 < x
  | .asymmetricLaplace, "q", x => 0 < x ∧ x < 1
  | .asymmetricLaplace, "kappa", x => 0 < x
  | .exponential, _, x => 0 < x
  | .halfNormal, _, x => 0 < x
  | .halfStudentT, _, x => 0 < x
  | .studentT, "lam", x => 0 < x
  | .studentT, "sigma", x => 0 < x
  | .skewStudentT, "lam", x => 0 < x
  | .skewStudentT, "sigma", x => 0 < x
  | .normal, "tau", x => 0 < x
  | .normal, "sigma", x => 0 < x
  | .logitNormal, "tau", x => 0 < x
  | .logitNormal, "sigma", x => 0 < x
  | .skewNormal, "tau", x => 0 < x
  | .skewNormal, "sigma", x => 0 < x
  | .negativeBinomial, "p", x => 0 < x ∧ x < 1
  | .negativeBinomial, _, x => 0 < x
  | .ziNegativeBinomial, "p", x => 0 < x ∧ x < 1
  | .ziNegativeBinomial, _, x => 0 < x
  | .rice, "nu", x => 0 ≤ x
  | .rice, "b", x => 0 ≤ x
  | .rice, _, x => 0 < x
  | .wald, _, x => 0 < x
  | .kumaraswamy, _, x => 0 < x
  | _, _, _ => True

/-- every given argument is in its documented range -/
def InRange (f : Family) (kw : Kw) : Prop := ∀ k x, kw k = some x → inRange f k x

/-- the call `f(**{k: v, ...})` -/
def kwOf (l : List (String × ℝ)) : Kw := fun k => l.lookup k

/-- the object is frozen, its attributes have the listed values, and `params_dict` is exactly the
arguments of the call -/
def Reports (o : Obj) (call : List (String × ℝ)) (attrs : List (String × ℝ)) : Prop :=
  o.frozen = true ∧ o.names = call.map Prod.fst ∧
    o.params = some (call.map fun kv => some kv.2) ∧
    ∀ kv ∈ call ++ attrs, o.attr kv.1 = some kv.2

/-! ## Textbook moments used as the independent yardstick -/

noncomputable def betaMean (a b : ℝ) : ℝ := a / (a + b)
noncomputable def betaVar (a b : ℝ) : ℝ := a * b / ((a + b) ^ 2 * (a + b + 1))
noncomputable def gammaMean (a b : ℝ) : ℝ := a / b
noncomputable def gammaVar (a b : ℝ) : ℝ := a / b ^ 2
noncomputable def invGammaMean (a b : ℝ) : ℝ := b / (a - 1)
noncomputable def invGammaVar (a b : ℝ) : ℝ := b ^ 2 / ((a - 1) ^ 2 * (a - 2))
/-- number of failures before the `n`-th success with success probability `p` -/
noncomputable def nbMean (n p : ℝ) : ℝ := n * (1 - p) / p
noncomputable def nbVar (n p : ℝ) : ℝ := n * (1 - p) / p ^ 2

end Verif.Spec
