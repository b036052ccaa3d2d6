import Verif.Model.NumFit
import Mathlib.Tactic

set_option linter.unusedSimpArgs false

namespace Verif.NumFit
open Verif Verif.Param Verif.Optim

/-- both calls raise the same exception, or both give objects with the same law -/
def Agree (f : Family) : Except Err Obj → Except Err Obj → Prop
  | .ok a, .ok b => law f a = law f b ∧ a.names = b.names
  | .error e, .error e' => e = e'
  | _, _ => False

theorem agree_bind {α : Type} (f : Family) (r : Except Err α) (g h : α → Except Err Obj)
    (H : ∀ a, Agree f (g a) (h a)) : Agree f (r >>= g) (r >>= h) := by
  cases r with
  | ok a => exact H a
  | error e => rfl

local macro "agree" : tactic => `(tactic| (
  (try simp [allNotNone, anyNotNone, pyAnd]) <;>
  (repeat' (first | (split_ifs) | (refine agree_bind _ _ _ _ fun s => ?_))) <;>
  (simp [Agree, law, lawAttrs, Obj.setAll, Obj.set, Function.update, allNotNone, anyNotNone,
    normalUpdate, skewNormalUpdate, skewStudentTUpdate, asymLaplaceUpdate, betaUpdate, gammaUpdate,
    invGammaUpdate, riceUpdate, waldUpdate, kumaraswamyUpdate, exponentialUpdate, halfNormalUpdate,
    halfStudentTUpdate, studentTUpdate, nbUpdate, zinbUpdate, bernoulliUpdate]) <;>
  (try (split_ifs <;> simp))))

theorem param_agree (f : Family) (hf : f ≠ .betaScaled) (kw : Kw) (o o' : Obj) :
    Agree f (parametrize f kw o) (parametrize f kw o') := by
  cases f with
  | betaScaled => exact absurd rfl hf
  | simple s =>
    cases s <;>
    simp only [parametrize, simpleParam, simpleFam, List.map_cons, List.map_nil, allNotNone, List.all_cons, List.all_nil,
      Bool.and_true] <;> 
    split_ifs <;> 
    simp [Agree, law, lawAttrs, Obj.setAll, Obj.set, simpleUpdate, Function.update]
  | normal =>
    simp only [parametrize, normalParam]
    cases kw "mu" <;> cases kw "sigma" <;> cases h : kw "tau" <;> agree
  | logitNormal =>
    simp only [parametrize, normalParam]
    cases kw "mu" <;> cases kw "sigma" <;> cases h : kw "tau" <;> agree
  | halfNormal =>
    simp only [parametrize, halfNormalParam]
    cases kw "sigma" <;> cases h : kw "tau" <;> agree
  | asymmetricLaplace =>
    simp only [parametrize, asymLaplaceParam]
    cases kw "kappa" <;> cases kw "q" <;> cases kw "mu" <;> cases kw "b" <;> agree
  | bernoulli =>
    simp only [parametrize, bernoulliParam]
    cases kw "p" <;> cases kw "logit_p" <;> agree
  | beta =>
    simp only [parametrize, betaParam]
    cases kw "alpha" <;> cases kw "beta" <;> cases kw "mu" <;> cases kw "sigma" <;> cases kw "nu" <;> agree
  | exponential =>
    simp only [parametrize, exponentialParam]
    cases kw "lam" <;> cases kw "scale" <;> agree
  | gamma =>
    simp only [parametrize, gammaLikeParam]
    cases kw "alpha" <;> cases kw "beta" <;> cases kw "mu" <;> cases kw "sigma" <;> agree
  | inverseGamma =>
    simp only [parametrize, gammaLikeParam]
    cases kw "alpha" <;> cases kw "beta" <;> cases kw "mu" <;> cases kw "sigma" <;> agree
  | halfStudentT =>
    simp only [parametrize, halfStudentTParam]
    cases kw "nu" <;> cases kw "sigma" <;> cases kw "lam" <;> agree
  | studentT =>
    simp only [parametrize, studentTParam]
    cases kw "nu" <;> cases kw "mu" <;> cases kw "sigma" <;> cases kw "lam" <;> agree
  | kumaraswamy =>
    simp only [parametrize, kumaraswamyParam]
    cases kw "a" <;> cases kw "b" <;> agree
  | negativeBinomial =>
    simp only [parametrize, nbParam]
    cases kw "mu" <;> cases kw "alpha" <;> cases kw "p" <;> cases kw "n" <;> agree
  | ziNegativeBinomial =>
    simp only [parametrize, zinbParam]
    cases kw "psi" <;> cases kw "mu" <;> cases kw "alpha" <;> cases kw "p" <;> cases kw "n" <;> agree
  | rice =>
    simp only [parametrize, riceParam]
    cases kw "nu" <;> cases kw "b" <;> cases kw "sigma" <;> agree
  | skewNormal =>
    simp only [parametrize, skewNormalParam]
    cases kw "mu" <;> cases kw "sigma" <;> cases kw "tau" <;> cases kw "alpha" <;> agree
  | skewStudentT =>
    simp only [parametrize, skewStudentTParam]
    cases kw "mu" <;> cases kw "sigma" <;> cases kw "lam" <;> cases kw "a" <;> cases kw "b" <;> agree
  | wald =>
    simp only [parametrize, waldParam]
    cases kw "mu" <;> cases kw "lam" <;> cases kw "phi" <;> agree

end Verif.NumFit
