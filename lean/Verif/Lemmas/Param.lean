import Verif.Spec.Param
import Verif.Spec.Rebuild

/-! Helper lemmas for C05–C07: the code's conflict guards. -/

namespace Verif.Param
open Verif Verif.Spec

/-- The first `if` of each `_parametrization`. -/
def guard : Family → Kw → Bool
  | .asymmetricLaplace, kw => allNotNone [kw "kappa", kw "q"]
  | .bernoulli, kw => allNotNone [kw "p", kw "logit_p"]
  | .beta, kw => (anyNotNone [kw "alpha", kw "beta"] && anyNotNone [kw "mu", kw "sigma", kw "nu"])
      || allNotNone [kw "sigma", kw "nu"]
  | .exponential, kw => allNotNone [kw "lam", kw "scale"]
  | .gamma, kw => anyNotNone [kw "alpha", kw "beta"] && anyNotNone [kw "mu", kw "sigma"]
  | .halfNormal, kw => allNotNone [kw "sigma", kw "tau"]
  | .halfStudentT, kw => allNotNone [kw "sigma", kw "lam"]
  | .inverseGamma, kw => anyNotNone [kw "alpha", kw "beta"] && anyNotNone [kw "mu", kw "sigma"]
  | .logitNormal, kw => allNotNone [kw "sigma", kw "tau"]
  | .negativeBinomial, kw => anyNotNone [kw "mu", kw "alpha"] && anyNotNone [kw "p", kw "n"]
  | .normal, kw => allNotNone [kw "sigma", kw "tau"]
  | .rice, kw => allNotNone [kw "nu", kw "b"]
  | .skewNormal, kw => allNotNone [kw "sigma", kw "tau"]
  | .skewStudentT, kw => allNotNone [kw "sigma", kw "lam"]
  | .studentT, kw => allNotNone [kw "sigma", kw "lam"]
  | .wald, kw => allNotNone [kw "mu", kw "lam", kw "phi"]
  | .ziNegativeBinomial, kw => anyNotNone [kw "mu", kw "alpha"] && anyNotNone [kw "p", kw "n"]
  | _, _ => false

local macro "gs" : tactic =>
  `(tactic| simp [Compatible, args, ways, Way.plain, guard, allNotNone, anyNotNone, *])

theorem compatible_iff_guard (f : Family) (kw : Kw) : Compatible f kw ↔ guard f kw = false := by
  cases f with
  | simple s => cases s <;> simp [Compatible, args, ways, Way.plain, guard]
  | asymmetricLaplace => cases h1 : kw "kappa" <;> cases h2 : kw "q" <;> gs
  | bernoulli => cases h1 : kw "p" <;> cases h2 : kw "logit_p" <;> gs
  | beta =>
    cases h1 : kw "alpha" <;> cases h2 : kw "beta" <;> cases h3 : kw "mu" <;>
    cases h4 : kw "sigma" <;> cases h5 : kw "nu" <;> gs
  | betaScaled => gs
  | exponential => cases h1 : kw "lam" <;> cases h2 : kw "scale" <;> gs
  | gamma =>
    cases h1 : kw "alpha" <;> cases h2 : kw "beta" <;> cases h3 : kw "mu" <;>
    cases h4 : kw "sigma" <;> gs
  | inverseGamma =>
    cases h1 : kw "alpha" <;> cases h2 : kw "beta" <;> cases h3 : kw "mu" <;>
    cases h4 : kw "sigma" <;> gs
  | wald => cases h1 : kw "mu" <;> cases h2 : kw "lam" <;> cases h3 : kw "phi" <;> gs
  | halfNormal => cases h1 : kw "sigma" <;> cases h2 : kw "tau" <;> gs
  | halfStudentT => cases h1 : kw "sigma" <;> cases h2 : kw "lam" <;> gs
  | kumaraswamy => gs
  | logitNormal => cases h1 : kw "sigma" <;> cases h2 : kw "tau" <;> gs
  | normal => cases h1 : kw "sigma" <;> cases h2 : kw "tau" <;> gs
  | negativeBinomial =>
    cases h1 : kw "mu" <;> cases h2 : kw "alpha" <;> cases h3 : kw "p" <;>
    cases h4 : kw "n" <;> gs
  | rice => cases h1 : kw "nu" <;> cases h2 : kw "b" <;> gs
  | skewNormal => cases h1 : kw "sigma" <;> cases h2 : kw "tau" <;> gs
  | skewStudentT => cases h1 : kw "sigma" <;> cases h2 : kw "lam" <;> gs
  | studentT => cases h1 : kw "sigma" <;> cases h2 : kw "lam" <;> gs
  | ziNegativeBinomial =>
    cases h1 : kw "mu" <;> cases h2 : kw "alpha" <;> cases h3 : kw "p" <;>
    cases h4 : kw "n" <;> gs

theorem guard_error (f : Family) (kw : Kw) (o : Obj) (h : guard f kw = true) :
    parametrize f kw o = .error .valueError := by
  cases f <;> simp only [guard, Bool.false_eq_true] at h <;>
  simp only [parametrize, asymLaplaceParam, bernoulliParam, betaParam, exponentialParam,
    gammaLikeParam, halfNormalParam, halfStudentTParam, normalParam, nbParam, riceParam,
    skewNormalParam, skewStudentTParam, studentTParam, waldParam, zinbParam, h, if_true]

end Verif.Param
