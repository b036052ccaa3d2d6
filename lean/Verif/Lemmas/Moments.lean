import Verif.Spec.Moments
import Verif.Lemmas.Param2

/-! Helper lemmas for C08–C10. -/

set_option linter.unusedSimpArgs false

namespace Verif.Param
open Verif Verif.Spec

/-- `_update` stores the canonical parameters (after the integer conversion of DiscreteUniform). -/
theorem update_holds (f : MomFam) (vals : List ℝ) (o : Obj)
    (hl : vals.length = (canonNames f).length) :
    Gives (update f.family vals o) fun o' =>
      Holds f (match f, vals with
        | .discreteUniform, [l, u] => [(⌊l⌋ : ℝ), (⌈u⌉ : ℝ)]
        | _, v => v) o' := by
  cases f
  all_goals
    simp only [canonNames, List.length_cons, List.length_nil] at hl
  case asymmetricLaplace =>
    match vals, hl with
    | [a, b, c], _ =>
      by_cases h0 : o.names[0]? = some "kappa" <;> by_cases h1 : o.names[0]? = some "q" <;>
        simp [MomFam.family, update, Holds, canonNames, asymLaplaceUpdate, Obj.setAll, Obj.set, h0, h1]
  case bernoulli =>
    match vals, hl with
    | [a], _ =>
      by_cases h0 : o.names[0]? = some "p" <;> by_cases h1 : o.names[0]? = some "logit_p" <;>
        simp [MomFam.family, update, Holds, canonNames, bernoulliUpdate, Obj.setAll, Obj.set, h0, h1]
  case beta =>
    match vals, hl with
    | [a, b], _ =>
      by_cases h0 : o.names[0]? = some "alpha" <;> by_cases h1 : o.names[1]? = some "sigma" <;> by_cases h2 : o.names[1]? = some "nu" <;>
        simp [MomFam.family, update, Holds, canonNames, betaUpdate, Obj.setAll, Obj.set, h0, h1, h2]
  case betaScaled =>
    match vals, hl with
    | [a, b, c, d], _ => simp [MomFam.family, update, Holds, canonNames, betaScaledUpdate, Obj.setAll, Obj.set]
  case exponential =>
    match vals, hl with
    | [a], _ =>
      by_cases h0 : o.names[0]? = some "lam" <;> by_cases h1 : o.names[0]? = some "scale" <;>
        simp [MomFam.family, update, Holds, canonNames, exponentialUpdate, Obj.setAll, Obj.set, h0, h1]
  case gamma =>
    match vals, hl with
    | [a, b], _ =>
      by_cases h0 : o.names[0]? = some "alpha" <;> by_cases h1 : o.names[1]? = some "sigma" <;>
        simp [MomFam.family, update, Holds, canonNames, gammaUpdate, Obj.setAll, Obj.set, h0, h1]
  case inverseGamma =>
    match vals, hl with
    | [a, b], _ =>
      by_cases h0 : o.names[0]? = some "alpha" <;> by_cases h1 : o.names[1]? = some "sigma" <;>
        simp [MomFam.family, update, Holds, canonNames, invGammaUpdate, Obj.setAll, Obj.set, h0, h1]
  case halfNormal =>
    match vals, hl with
    | [a], _ =>
      by_cases h0 : o.names[0]? = some "sigma" <;> by_cases h1 : o.names[0]? = some "tau" <;>
        simp [MomFam.family, update, Holds, canonNames, halfNormalUpdate, Obj.setAll, Obj.set, h0, h1]
  case normal =>
    match vals, hl with
    | [a, b], _ =>
      by_cases h0 : o.names[1]? = some "sigma" <;> by_cases h1 : o.names[1]? = some "tau" <;>
        simp [MomFam.family, update, Holds, canonNames, normalUpdate, Obj.setAll, Obj.set, h0, h1]
  case studentT =>
    match vals, hl with
    | [a, b, c], _ =>
      by_cases h0 : o.names[2]? = some "sigma" <;> by_cases h1 : o.names[2]? = some "lam" <;>
        simp [MomFam.family, update, Holds, canonNames, studentTUpdate, Obj.setAll, Obj.set, h0, h1]
  case wald =>
    match vals, hl with
    | [a, b], _ =>
      by_cases h0 : o.names = ["mu", "lam"] <;> by_cases h1 : o.names = ["mu", "phi"] <;> by_cases h2 : o.names = ["lam", "phi"] <;>
        simp [MomFam.family, update, Holds, canonNames, waldUpdate, Obj.setAll, Obj.set, h0, h1, h2]
  case triangular =>
    match vals, hl with
    | [a, b, c], _ => simp [MomFam.family, update, Holds, canonNames, simpleUpdate, simpleFam, Obj.setAll, Obj.set]
  case chiSquared | geometric | poisson =>
    match vals, hl with
    | [a], _ => simp [MomFam.family, update, Holds, canonNames, simpleUpdate, simpleFam, Obj.setAll, Obj.set]
  all_goals
    match vals, hl with
    | [a, b], _ => simp [MomFam.family, update, Holds, canonNames, simpleUpdate, simpleFam, Obj.setAll, Obj.set]

theorem fit_holds (f : MomFam) (hf : f ≠ .discreteUniform) (vals : List ℝ) (m s : ℝ) (o : Obj)
    (hl : vals.length = (canonNames f).length) (h : momentParams f o m s = .ok vals)
    (P : Obj → Prop) (hP : ∀ o', Holds f vals o' → P o') : Gives (fitMoments f m s o) P := by
  obtain ⟨o', h1, h2⟩ := update_holds f vals o hl
  refine ⟨o', by simp [fitMoments, h, h1], hP o' ?_⟩
  cases f <;> first | exact absurd rfl hf | simpa using h2

theorem fit_matches (f : MomFam) (hf : f ≠ .discreteUniform) (vals : List ℝ) (m s : ℝ) (o : Obj)
    (hl : vals.length = (canonNames f).length) (h : momentParams f o m s = .ok vals)
    (h1 : Admissible f vals) (h2 : HasVar f vals) (h3 : tMean f vals = m)
    (h4 : tVar f vals = s ^ 2) : Gives (fitMoments f m s o) (Matches f m s) :=
  fit_holds f hf vals m s o hl h _ fun _ ho => ⟨vals, ho, h1, h2, h3, h4⟩

end Verif.Param
