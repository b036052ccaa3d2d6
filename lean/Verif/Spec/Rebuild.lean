import Verif.Spec.Param

/-!
# Histories of a distribution object (C07)

The domain in which C07 is claimed, and the histories it ranges over.
-/

namespace Verif.Spec

open Verif Verif.Param

/-- the excluded cases of C06: see the negation theorems in `Props/Param.lean` -/
def Regular (f : Family) (kw : Kw) : Prop :=
  (f = .kumaraswamy → kw "a" ≠ some 0) ∧ (f = .ziNegativeBinomial → (kw "psi").isSome)

/-- parameter-name tuples under which a family reports without going through `to_precision` -/
noncomputable def exactNames : Family → List (List String)
  | .simple s => [(simpleFam s).args]
  | .asymmetricLaplace => [["kappa", "mu", "b"], ["q", "mu", "b"]]
  | .bernoulli => [["p"], ["logit_p"]]
  | .beta => [["alpha", "beta"], ["mu", "sigma"], ["mu", "nu"]]
  | .betaScaled => [["alpha", "beta", "lower", "upper"]]
  | .exponential => [["lam"], ["scale"]]
  | .gamma => [["alpha", "beta"], ["mu", "sigma"]]
  | .halfNormal => [["sigma"]]
  | .halfStudentT => [["nu", "sigma"]]
  | .inverseGamma => [["alpha", "beta"], ["mu", "sigma"]]
  | .kumaraswamy => [["a", "b"]]
  | .logitNormal => [["mu", "sigma"]]
  | .negativeBinomial => [["mu", "alpha"], ["p", "n"]]
  | .normal => [["mu", "sigma"]]
  | .rice => [["nu", "sigma"], ["b", "sigma"]]
  | .skewNormal => [["mu", "sigma", "alpha"]]
  | .skewStudentT => [["mu", "sigma", "a", "b"]]
  | .studentT => [["nu", "mu", "sigma"]]
  | .wald => [["mu", "lam"], ["mu", "phi"], ["lam", "phi"]]
  | .ziNegativeBinomial => [["psi", "mu", "alpha"], ["psi", "p", "n"]]

/-- canonical values inside the documented domain (as far as the conversions need it) -/
def canonDom : Family → List String → List ℝ → Prop
  | .simple s, _, vals => vals.length = (simpleFam s).args.length
  | .asymmetricLaplace, _, [k, _, _] => 0 < k
  | .bernoulli, names, [p] => names = ["logit_p"] → 0 < p ∧ p < 1
  | .beta, _, [a, b] => 0 < a ∧ 0 < b
  | .betaScaled, _, [_, _, _, _] => True
  | .exponential, _, [l] => 0 < l
  | .gamma, _, [a, b] => 0 < a ∧ 0 < b
  | .halfNormal, _, [_] => True
  | .halfStudentT, _, [_, _] => True
  | .inverseGamma, names, [a, b] => 0 < a ∧ 0 < b ∧ (names = ["mu", "sigma"] → 2 < a)
  | .kumaraswamy, _, [a, b] => 0 < a ∧ 0 < b
  | .logitNormal, _, [_, _] => True
  | .negativeBinomial, _, [m, a] => 0 < m ∧ 0 < a
  | .normal, _, [_, _] => True
  | .rice, _, [_, s] => 0 < s
  | .skewNormal, _, [_, _, _] => True
  | .skewStudentT, _, [_, _, _, _] => True
  | .studentT, _, [_, _, _] => True
  | .wald, _, [m, l] => 0 < m ∧ 0 < l
  | .ziNegativeBinomial, _, [_, m, a] => 0 < m ∧ 0 < a
  | _, _, _ => False

/-- keyword arguments in the documented domain, including Beta's attainability condition and the two
irregular cases excluded in C06 -/
def InDom (f : Family) (kw : Kw) : Prop :=
  InRange f kw ∧ Regular f kw ∧
  (f = .beta → ∀ m s, kw "mu" = some m → kw "sigma" = some s → s ^ 2 < m * (1 - m))

/-- Histories: construction, re-parametrisation and refits (`_update`) in any order, with arguments in
the documented domain.  An object that is already frozen is only re-parametrised with a complete set
of arguments (what happens otherwise is `stale_params_mislabelled`). -/
inductive Reach (f : Family) : Obj → Prop
  | build {kw o} : InDom f kw → construct f kw = .ok o → Reach f o
  | reparam {kw o o'} : Reach f o → InDom f kw → (o.frozen = false ∨ Complete f kw) →
      parametrize f kw o = .ok o' → Reach f o'
  | refit {vals o o'} : Reach f o → canonDom f o.names vals → update f vals o = .ok o' → Reach f o'

/-- the parameter names do not go through a precision (`tau`, or `lam` of the t families) -/
def NoPrecision (f : Family) (o : Obj) : Prop := o.names ∈ exactNames f

end Verif.Spec
