import Verif.Lemmas.Param3

/-! Helper lemmas for C07: a complete `_parametrization` writes the report of canonical values. -/

set_option linter.unusedSimpArgs false
set_option linter.unusedVariables false

namespace Verif.Param
open Verif Verif.Spec Verif.Props

def HasBounds (f : Family) (o : Obj) : Prop :=
  f = .betaScaled → (o.attr "lower").isSome ∧ (o.attr "upper").isSome

def Canonical (f : Family) (o : Obj) : Prop :=
  o.names ∈ exactNames f → ∃ vals, canonDom f o.names vals ∧ o.params = some (report f o.names vals)

theorem canonical_of (f : Family) (o : Obj) (names : List String) (vals : List ℝ)
    (hn : o.names = names) (hd : canonDom f names vals)
    (hp : o.params = some (report f names vals)) : Canonical f o := by
  subst hn
  exact fun _ => ⟨vals, hd, hp⟩

theorem canonical_not (f : Family) (o : Obj) (hn : o.names ∉ exactNames f) : Canonical f o :=
  fun h => absurd h hn

theorem beta_param_canonical (kw : Kw) (o o' : Obj) (hdom : InDom .beta kw)
    (hc : Complete .beta kw) (h : betaParam kw o = .ok o') : Canonical .beta o' := by
  simp only [betaParam] at h
  split at h
  · simp at h
  · rename_i hg
    cases h3 : kw "mu" with
    | none =>
      cases h1 : kw "alpha" with
      | none => simp [Complete, ways, Way.plain, h1, h3] at hc
      | some a =>
        cases h2 : kw "beta" with
        | none => simp [Complete, ways, Way.plain, h2, h3] at hc
        | some b =>
          have hs : kw "sigma" = none := by
            cases hs : kw "sigma" <;> simp_all [anyNotNone, allNotNone]
          have hnu : kw "nu" = none := by
            cases hs : kw "nu" <;> simp_all [anyNotNone, allNotNone]
          simp [h1, h2, h3, hs, hnu, anyNotNone] at h
          subst h
          exact canonical_of _ _ ["alpha", "beta"] [a, b] (by simp [betaUpdate])
            ⟨hdom.1 _ _ h1, hdom.1 _ _ h2⟩ (by simp [betaUpdate, report])
    | some m =>
      have hm : 0 < m ∧ m < 1 := hdom.1 _ _ h3
      cases h4 : kw "sigma" with
      | some s =>
        have hs : 0 < s := hdom.1 _ _ h4
        obtain ⟨a, b, hab, ha, hb, -, -, hto⟩ :=
          beta_from_mu_sigma m s hm.1 hm.2 hs (hdom.2.2 rfl m s h3 h4)
        simp [h3, h4, anyNotNone, hab] at h
        subst h
        exact canonical_of _ _ ["mu", "sigma"] [a, b] (by simp [betaUpdate])
            ⟨ha, hb⟩ (by simp [betaUpdate, report])
      | none =>
        cases h5 : kw "nu" with
        | some n =>
          have hn : 0 < n := hdom.1 _ _ h5
          have := beta_from_mu_nu m n hm.1 hm.2 hn
          simp [h3, h4, h5, anyNotNone] at h
          subst h
          exact canonical_of _ _ ["mu", "nu"] [m * n, (1 - m) * n] (by simp [betaUpdate])
            ⟨this.1, this.2.1⟩ (by simp [betaUpdate, report, betaFromMuNu])
        | none =>
          have h1 : kw "alpha" = none := by
            cases hs : kw "alpha" <;> simp_all [anyNotNone, allNotNone]
          simp [Complete, ways, Way.plain, h1, h4, h5] at hc

theorem gamma_param_canonical (kw : Kw) (o o' : Obj) (hdom : InDom .gamma kw)
    (hc : Complete .gamma kw) (h : gammaLikeParam gammaFromMuSigma gammaUpdate kw o = .ok o') :
    Canonical .gamma o' := by
  simp only [gammaLikeParam] at h
  split at h
  · simp at h
  · rename_i hg
    cases h3 : kw "mu" with
    | none =>
      have hs : kw "sigma" = none := by
        cases hs : kw "sigma" with
        | none => rfl
        | some s =>
          have h1 : kw "alpha" = none := by
            cases h1 : kw "alpha" <;> simp_all [anyNotNone]
          simp [Complete, ways, Way.plain, h1, h3] at hc
      cases h1 : kw "alpha" with
      | none => simp [Complete, ways, Way.plain, h1, h3] at hc
      | some a =>
        cases h2 : kw "beta" with
        | none => simp [Complete, ways, Way.plain, h2, h3] at hc
        | some b =>
          simp [h1, h2, h3, hs, anyNotNone] at h
          subst h
          exact canonical_of _ _ ["alpha", "beta"] [a, b] (by simp [gammaUpdate])
            ⟨hdom.1 _ _ h1, hdom.1 _ _ h2⟩ (by simp [gammaUpdate, report])
    | some m =>
      have hm : 0 < m := hdom.1 _ _ h3
      cases h4 : kw "sigma" with
      | some s =>
        have hs : 0 < s := hdom.1 _ _ h4
        obtain ⟨a, b, hab, ha, hb, -, -, hto⟩ := gamma_from_mu_sigma m s hm hs
        simp [h3, h4, anyNotNone, hab] at h
        subst h
        exact canonical_of _ _ ["mu", "sigma"] [a, b] (by simp [gammaUpdate])
            ⟨ha, hb⟩ (by simp [gammaUpdate, report])
      | none =>
        have h1 : kw "alpha" = none := by
          cases hs : kw "alpha" <;> simp_all [anyNotNone, allNotNone]
        simp [Complete, ways, Way.plain, h1, h4] at hc

theorem invgamma_param_canonical (kw : Kw) (o o' : Obj) (hdom : InDom .inverseGamma kw)
    (hc : Complete .inverseGamma kw)
    (h : gammaLikeParam invGammaFromMuSigma invGammaUpdate kw o = .ok o') :
    Canonical .inverseGamma o' := by
  simp only [gammaLikeParam] at h
  split at h
  · simp at h
  · rename_i hg
    cases h3 : kw "mu" with
    | none =>
      have hs : kw "sigma" = none := by
        cases hs : kw "sigma" with
        | none => rfl
        | some s =>
          have h1 : kw "alpha" = none := by
            cases h1 : kw "alpha" <;> simp_all [anyNotNone]
          simp [Complete, ways, Way.plain, h1, h3] at hc
      cases h1 : kw "alpha" with
      | none => simp [Complete, ways, Way.plain, h1, h3] at hc
      | some a =>
        cases h2 : kw "beta" with
        | none => simp [Complete, ways, Way.plain, h2, h3] at hc
        | some b =>
          simp [h1, h2, h3, hs, anyNotNone] at h
          subst h
          exact canonical_of _ _ ["alpha", "beta"] [a, b] (by simp [invGammaUpdate])
            ⟨hdom.1 _ _ h1, hdom.1 _ _ h2, by simp⟩ (by simp [invGammaUpdate, report])
    | some m =>
      have hm : 0 < m := hdom.1 _ _ h3
      cases h4 : kw "sigma" with
      | some s =>
        have hs : 0 < s := hdom.1 _ _ h4
        obtain ⟨a, b, hab, ha, hb, -⟩ := invgamma_from_mu_sigma m s hm hs
        simp [h3, h4, anyNotNone, hab] at h
        subst h
        exact canonical_of _ _ ["mu", "sigma"] [a, b] (by simp [invGammaUpdate])
            ⟨by linarith, hb, fun _ => ha⟩ (by simp [invGammaUpdate, report])
      | none =>
        have h1 : kw "alpha" = none := by
          cases hs : kw "alpha" <;> simp_all [anyNotNone, allNotNone]
        simp [Complete, ways, Way.plain, h1, h4] at hc

theorem nb_param_canonical (kw : Kw) (o o' : Obj) (hdom : InDom .negativeBinomial kw)
    (hc : Complete .negativeBinomial kw) (h : nbParam kw o = .ok o') :
    Canonical .negativeBinomial o' := by
  simp only [nbParam] at h
  split at h
  · simp at h
  · rename_i hg
    cases h3 : kw "p" with
    | none =>
      have hs : kw "n" = none := by
        cases hs : kw "n" with
        | none => rfl
        | some s =>
          have h1 : kw "mu" = none := by
            cases h1 : kw "mu" <;> simp_all [anyNotNone]
          simp [Complete, ways, Way.plain, h1, h3] at hc
      cases h1 : kw "mu" with
      | none => simp [Complete, ways, Way.plain, h1, h3] at hc
      | some a =>
        cases h2 : kw "alpha" with
        | none => simp [Complete, ways, Way.plain, h2, h3] at hc
        | some b =>
          simp [h1, h2, h3, hs, anyNotNone] at h
          subst h
          exact canonical_of _ _ ["mu", "alpha"] [a, b] (by simp [nbUpdate])
            ⟨hdom.1 _ _ h1, hdom.1 _ _ h2⟩ (by simp [nbUpdate, report])
    | some p =>
      have hm : 0 < p ∧ p < 1 := hdom.1 _ _ h3
      cases h4 : kw "n" with
      | some n =>
        have hs : 0 < n := hdom.1 _ _ h4
        obtain ⟨a, b, hab, ha, hb, -⟩ := nb_from_to n p hs hm.1 hm.2
        simp [h3, h4, anyNotNone, hab] at h
        subst h
        exact canonical_of _ _ ["p", "n"] [a, b] (by simp [nbUpdate])
            ⟨ha, hb⟩ (by simp [nbUpdate, report])
      | none =>
        have h1 : kw "mu" = none := by
          cases hs : kw "mu" <;> simp_all [anyNotNone, allNotNone]
        simp [Complete, ways, Way.plain, h1, h4] at hc

theorem zinb_param_canonical (kw : Kw) (o o' : Obj) (hdom : InDom .ziNegativeBinomial kw)
    (hc : Complete .ziNegativeBinomial kw) (h : zinbParam kw o = .ok o') :
    Canonical .ziNegativeBinomial o' := by
  have hpsi := hdom.2.1.2 rfl
  obtain ⟨psi, hpsi⟩ := Option.isSome_iff_exists.mp hpsi
  simp only [zinbParam] at h
  split at h
  · simp at h
  · rename_i hg
    cases h3 : kw "p" with
    | none =>
      have hs : kw "n" = none := by
        cases hs : kw "n" with
        | none => rfl
        | some s =>
          have h1 : kw "mu" = none := by
            cases h1 : kw "mu" <;> simp_all [anyNotNone]
          simp [Complete, ways, Way.plain, h1, h3] at hc
      cases h1 : kw "mu" with
      | none => simp [Complete, ways, Way.plain, h1, h3] at hc
      | some a =>
        cases h2 : kw "alpha" with
        | none => simp [Complete, ways, Way.plain, h2, h3] at hc
        | some b =>
          simp [h1, h2, h3, hs, hpsi, anyNotNone] at h
          subst h
          exact canonical_of _ _ ["psi", "mu", "alpha"] [psi, a, b] (by simp [zinbUpdate])
            ⟨hdom.1 _ _ h1, hdom.1 _ _ h2⟩ (by simp [zinbUpdate, report])
    | some p =>
      have hm : 0 < p ∧ p < 1 := hdom.1 _ _ h3
      cases h4 : kw "n" with
      | some n =>
        have hs : 0 < n := hdom.1 _ _ h4
        obtain ⟨a, b, hab, ha, hb, -⟩ := nb_from_to n p hs hm.1 hm.2
        simp [h3, h4, hpsi, anyNotNone, hab] at h
        subst h
        exact canonical_of _ _ ["psi", "p", "n"] [psi, a, b] (by simp [zinbUpdate])
            ⟨ha, hb⟩ (by simp [zinbUpdate, report])
      | none =>
        have h1 : kw "mu" = none := by
          cases hs : kw "mu" <;> simp_all [anyNotNone, allNotNone]
        simp [Complete, ways, Way.plain, h1, h4] at hc

theorem wald_param_canonical (kw : Kw) (o o' : Obj) (hdom : InDom .wald kw)
    (hc : Complete .wald kw) (h : waldParam kw o = .ok o') : Canonical .wald o' := by
  simp only [waldParam] at h
  split at h
  · simp at h
  · rename_i hg
    cases h3 : kw "phi" with
    | none =>
      cases h1 : kw "mu" with
      | none => simp [Complete, ways, Way.plain, h1, h3] at hc
      | some m =>
        cases h2 : kw "lam" with
        | none => simp [Complete, ways, Way.plain, h2, h3] at hc
        | some l =>
          simp [h1, h2, h3] at h
          subst h
          exact canonical_of _ _ ["mu", "lam"] [m, l] (by simp [waldUpdate])
            ⟨hdom.1 _ _ h1, hdom.1 _ _ h2⟩ (by simp [waldUpdate, report])
    | some p =>
      have hp : 0 < p := hdom.1 _ _ h3
      cases h1 : kw "mu" with
      | none =>
        cases h2 : kw "lam" with
        | none => simp [Complete, ways, Way.plain, h1, h2] at hc
        | some l =>
          have hl : 0 < l := hdom.1 _ _ h2
          simp [h1, h2, h3, pyAnd, hl.ne', waldFromLamPhi, pyDiv_ok hp.ne'] at h
          subst h
          exact canonical_of _ _ ["lam", "phi"] [l / p, l] (by simp [waldUpdate])
            ⟨by positivity, hl⟩ (by simp [waldUpdate, report])
      | some m =>
        have hm : 0 < m := hdom.1 _ _ h1
        have h2 : kw "lam" = none := by
          cases hs : kw "lam" <;> simp_all [allNotNone]
        simp [h1, h2, h3, pyAnd, hm.ne'] at h
        subst h
        exact canonical_of _ _ ["mu", "phi"] [m, m * p] (by simp [waldUpdate])
          ⟨hm, by positivity⟩ (by simp [waldUpdate, report, waldFromMuPhi])

theorem rice_param_canonical (kw : Kw) (o o' : Obj) (hdom : InDom .rice kw)
    (hc : Complete .rice kw) (h : riceParam kw o = .ok o') : Canonical .rice o' := by
  simp only [riceParam] at h
  split at h
  · simp at h
  · rename_i hg
    cases h3 : kw "sigma" with
    | none => simp [Complete, ways, Way.plain, h3] at hc
    | some s =>
      have hs : 0 < s := hdom.1 _ _ h3
      cases h2 : kw "b" with
      | none =>
        cases h1 : kw "nu" with
        | none => simp [Complete, ways, Way.plain, h1, h2] at hc
        | some n =>
          simp [h1, h2, h3] at h
          subst h
          exact canonical_of _ _ ["nu", "sigma"] [n, s] (by simp [riceUpdate]) hs
            (by simp [riceUpdate, report])
      | some b =>
        simp [h2, h3] at h
        subst h
        exact canonical_of _ _ ["b", "sigma"] [riceFromB b s, s] (by simp [riceUpdate]) hs
            (by simp [riceUpdate, report])

theorem asymlaplace_param_canonical (kw : Kw) (o o' : Obj) (hdom : InDom .asymmetricLaplace kw)
    (hc : Complete .asymmetricLaplace kw) (h : asymLaplaceParam kw o = .ok o') :
    Canonical .asymmetricLaplace o' := by
  simp only [asymLaplaceParam] at h
  split at h
  · simp at h
  · rename_i hg
    cases h3 : kw "mu" with
    | none => simp [Complete, ways, Way.plain, h3] at hc
    | some m =>
      cases h4 : kw "b" with
      | none => simp [Complete, ways, Way.plain, h4] at hc
      | some b =>
        cases h2 : kw "q" with
        | none =>
          cases h1 : kw "kappa" with
          | none => simp [Complete, ways, Way.plain, h1, h2] at hc
          | some k =>
            simp [h1, h2, h3, h4] at h
            subst h
            exact canonical_of _ _ ["kappa", "mu", "b"] [k, m, b] (by simp [asymLaplaceUpdate])
              (hdom.1 _ _ h1) (by simp [asymLaplaceUpdate, report])
        | some q =>
          have hq : 0 < q ∧ q < 1 := hdom.1 _ _ h2
          obtain ⟨k, hk, hkp, -⟩ := asym_laplace_round_trips.1 q hq.1 hq.2
          simp [h2, h3, h4, hk] at h
          subst h
          exact canonical_of _ _ ["q", "mu", "b"] [k, m, b] (by simp [asymLaplaceUpdate])
              hkp (by simp [asymLaplaceUpdate, report])

theorem simple_param_canonical (s : Simple) (kw : Kw) (o : Obj)
    (hc : ∀ k ∈ (simpleFam s).args, (kw k).isSome) :
    Canonical (.simple s) (simpleParam (simpleFam s) kw o) := by
  have h' : (((simpleFam s).args.map kw).all Option.isSome) = true := by
    simpa [List.all_map, List.all_eq_true] using hc
  refine canonical_of _ _ (simpleFam s).args ((simpleFam s).args.map fun k => (kw k).getD 0) ?_ ?_ ?_
  · simp only [simpleParam, allNotNone, h', if_true, simpleUpdate]
    cases (simpleFam s).preset <;> simp
  · simp [canonDom]
  · simp only [simpleParam, allNotNone, h', if_true, simpleUpdate, report]

theorem param_canonical (f : Family) (kw : Kw) (o o' : Obj) (hdom : InDom f kw)
    (hc : Complete f kw) (hb : HasBounds f o) (h : parametrize f kw o = .ok o') :
    Canonical f o' := by
  cases f with
  | simple s =>
    simp only [parametrize, Except.ok.injEq] at h
    subst h
    apply simple_param_canonical
    revert hc
    cases s <;> simp [Complete, ways, Way.plain, simpleFam]
  | asymmetricLaplace => exact asymlaplace_param_canonical kw o o' hdom hc h
  | bernoulli =>
    simp only [parametrize, bernoulliParam] at h
    split at h
    · simp at h
    · cases h2 : kw "logit_p" with
      | none =>
        cases h1 : kw "p" with
        | none => simp [Complete, ways, Way.plain, h1, h2] at hc
        | some p =>
          simp [h1, h2] at h
          subst h
          exact canonical_of _ _ ["p"] [p] (by simp [bernoulliUpdate]) (by simp [canonDom])
            (by simp [bernoulliUpdate, report])
      | some l =>
        simp [h2] at h
        subst h
        exact canonical_of _ _ ["logit_p"] [expit l] (by simp [bernoulliUpdate])
          (fun _ => ⟨(logit_expit l).1, (logit_expit l).2.1⟩) (by simp [bernoulliUpdate, report])
  | beta => exact beta_param_canonical kw o o' hdom hc h
  | betaScaled =>
    obtain ⟨hl, hu⟩ := hb rfl
    obtain ⟨l, hl⟩ := Option.isSome_iff_exists.mp hl
    obtain ⟨u, hu⟩ := Option.isSome_iff_exists.mp hu
    simp only [parametrize, betaScaledParam] at h
    cases h1 : kw "alpha" with
    | none => simp [Complete, ways, h1] at hc
    | some a =>
      cases h2 : kw "beta" with
      | none => simp [Complete, ways, h2] at hc
      | some b =>
        simp [h1, h2] at h
        subst h
        refine canonical_of _ _ ["alpha", "beta", "lower", "upper"]
          [a, b, (kw "lower").getD l, (kw "upper").getD u] ?_ trivial ?_
        · cases kw "lower" <;> cases kw "upper" <;> simp [betaScaledUpdate]
        · cases kw "lower" <;> cases kw "upper" <;>
            simp [betaScaledUpdate, report, Obj.setAll, Obj.set, hl, hu]
  | exponential =>
    simp only [parametrize, exponentialParam] at h
    split at h
    · simp at h
    · cases h2 : kw "scale" with
      | none =>
        cases h1 : kw "lam" with
        | none => simp [Complete, ways, Way.plain, h1, h2] at hc
        | some p =>
          simp [h1, h2] at h
          subst h
          exact canonical_of _ _ ["lam"] [p] (by simp [exponentialUpdate]) (hdom.1 _ _ h1)
            (by simp [exponentialUpdate, report])
      | some s =>
        have hs : 0 < s := hdom.1 _ _ h2
        simp [h2, pyDiv_ok hs.ne'] at h
        subst h
        exact canonical_of _ _ ["scale"] [s⁻¹] (by simp [exponentialUpdate])
          (inv_pos.mpr hs) (by simp [exponentialUpdate, report])
  | gamma => exact gamma_param_canonical kw o o' hdom hc h
  | inverseGamma => exact invgamma_param_canonical kw o o' hdom hc h
  | negativeBinomial => exact nb_param_canonical kw o o' hdom hc h
  | ziNegativeBinomial => exact zinb_param_canonical kw o o' hdom hc h
  | wald => exact wald_param_canonical kw o o' hdom hc h
  | rice => exact rice_param_canonical kw o o' hdom hc h
  | kumaraswamy =>
    simp only [parametrize, kumaraswamyParam] at h
    cases h1 : kw "a" with
    | none => simp [Complete, ways, Way.plain, h1] at hc
    | some a =>
      cases h2 : kw "b" with
      | none => simp [Complete, ways, Way.plain, h2] at hc
      | some b =>
        have ha : 0 < a := hdom.1 _ _ h1
        simp [h1, h2, pyAnd, ha.ne'] at h
        subst h
        exact canonical_of _ _ ["a", "b"] [a, b] (by simp [kumaraswamyUpdate])
          ⟨ha, hdom.1 _ _ h2⟩ (by simp [kumaraswamyUpdate, report])
  | halfNormal =>
    simp only [parametrize, halfNormalParam] at h
    split at h
    · simp at h
    · cases h2 : kw "tau" with
      | none =>
        cases h1 : kw "sigma" with
        | none => simp [Complete, ways, Way.plain, h1, h2] at hc
        | some s =>
          simp [h1, h2] at h
          subst h
          exact canonical_of _ _ ["sigma"] [s] (by simp [halfNormalUpdate]) trivial
            (by simp [halfNormalUpdate, report])
      | some t =>
        have ht : 0 < t := hdom.1 _ _ h2
        simp [h2, fromPrecision_ok ht] at h
        subst h
        exact canonical_not _ _ (by simp [halfNormalUpdate, exactNames])
  | halfStudentT =>
    simp only [parametrize, halfStudentTParam] at h
    split at h
    · simp at h
    · cases h3 : kw "nu" with
      | none => simp [Complete, ways, Way.plain, h3] at hc
      | some n =>
        cases h2 : kw "lam" with
        | none =>
          cases h1 : kw "sigma" with
          | none => simp [Complete, ways, Way.plain, h1, h2] at hc
          | some s =>
            simp [h1, h2, h3] at h
            subst h
            exact canonical_of _ _ ["nu", "sigma"] [n, s] (by simp [halfStudentTUpdate]) trivial
              (by simp [halfStudentTUpdate, report])
        | some t =>
          have ht : 0 < t := hdom.1 _ _ h2
          simp [h2, h3, fromPrecision_ok ht] at h
          subst h
          exact canonical_not _ _ (by simp [halfStudentTUpdate, exactNames])
  | logitNormal =>
    simp only [parametrize, normalParam] at h
    split at h
    · simp at h
    · cases h3 : kw "mu" with
      | none => simp [Complete, ways, Way.plain, h3] at hc
      | some n =>
        cases h2 : kw "tau" with
        | none =>
          cases h1 : kw "sigma" with
          | none => simp [Complete, ways, Way.plain, h1, h2] at hc
          | some s =>
            simp [h1, h2, h3] at h
            subst h
            exact canonical_of _ _ ["mu", "sigma"] [n, s] (by simp [normalUpdate]) trivial
              (by simp [normalUpdate, report])
        | some t =>
          have ht : 0 < t := hdom.1 _ _ h2
          simp [h2, h3, fromPrecision_ok ht] at h
          subst h
          exact canonical_not _ _ (by simp [normalUpdate, exactNames])
  | normal =>
    simp only [parametrize, normalParam] at h
    split at h
    · simp at h
    · cases h3 : kw "mu" with
      | none => simp [Complete, ways, Way.plain, h3] at hc
      | some n =>
        cases h2 : kw "tau" with
        | none =>
          cases h1 : kw "sigma" with
          | none => simp [Complete, ways, Way.plain, h1, h2] at hc
          | some s =>
            simp [h1, h2, h3] at h
            subst h
            exact canonical_of _ _ ["mu", "sigma"] [n, s] (by simp [normalUpdate]) trivial
              (by simp [normalUpdate, report])
        | some t =>
          have ht : 0 < t := hdom.1 _ _ h2
          simp [h2, h3, fromPrecision_ok ht] at h
          subst h
          exact canonical_not _ _ (by simp [normalUpdate, exactNames])
  | studentT =>
    simp only [parametrize, studentTParam] at h
    split at h
    · simp at h
    · cases h3 : kw "mu" with
      | none => simp [Complete, ways, Way.plain, h3] at hc
      | some n =>
        cases h4 : kw "nu" with
        | none => simp [Complete, ways, Way.plain, h4] at hc
        | some nu =>
          cases h2 : kw "lam" with
          | none =>
            cases h1 : kw "sigma" with
            | none => simp [Complete, ways, Way.plain, h1, h2] at hc
            | some s =>
              simp [h1, h2, h3, h4] at h
              subst h
              exact canonical_of _ _ ["nu", "mu", "sigma"] [nu, n, s] (by simp [studentTUpdate])
                trivial (by simp [studentTUpdate, report])
          | some t =>
            have ht : 0 < t := hdom.1 _ _ h2
            simp [h2, h3, h4, fromPrecision_ok ht] at h
            subst h
            exact canonical_not _ _ (by simp [studentTUpdate, exactNames])
  | skewNormal =>
    simp only [parametrize, skewNormalParam] at h
    split at h
    · simp at h
    · cases h3 : kw "mu" with
      | none => simp [Complete, ways, Way.plain, h3] at hc
      | some n =>
        cases h4 : kw "alpha" with
        | none => simp [Complete, ways, Way.plain, h4] at hc
        | some a =>
          cases h2 : kw "tau" with
          | none =>
            cases h1 : kw "sigma" with
            | none => simp [Complete, ways, Way.plain, h1, h2] at hc
            | some s =>
              simp [h1, h2, h3, h4] at h
              subst h
              exact canonical_of _ _ ["mu", "sigma", "alpha"] [n, s, a] (by simp [skewNormalUpdate])
                trivial (by simp [skewNormalUpdate, report])
          | some t =>
            have ht : 0 < t := hdom.1 _ _ h2
            simp [h2, h3, h4, fromPrecision_ok ht] at h
            subst h
            exact canonical_not _ _ (by simp [skewNormalUpdate, exactNames])
  | skewStudentT =>
    simp only [parametrize, skewStudentTParam] at h
    split at h
    · simp at h
    · cases h3 : kw "mu" with
      | none => simp [Complete, ways, Way.plain, h3] at hc
      | some n =>
        cases h4 : kw "a" with
        | none => simp [Complete, ways, Way.plain, h4] at hc
        | some a =>
          cases h5 : kw "b" with
          | none => simp [Complete, ways, Way.plain, h5] at hc
          | some b =>
            cases h2 : kw "lam" with
            | none =>
              cases h1 : kw "sigma" with
              | none => simp [Complete, ways, Way.plain, h1, h2] at hc
              | some s =>
                simp [h1, h2, h3, h4, h5] at h
                subst h
                exact canonical_of _ _ ["mu", "sigma", "a", "b"] [n, s, a, b]
                  (by simp [skewStudentTUpdate]) trivial (by simp [skewStudentTUpdate, report])
            | some t =>
              have ht : 0 < t := hdom.1 _ _ h2
              simp [h2, h3, h4, h5, fromPrecision_ok ht] at h
              subst h
              exact canonical_not _ _ (by simp [skewStudentTUpdate, exactNames])

theorem reach_inv (f : Family) (o : Obj) (h : Reach f o) :
    (o.frozen = true → Canonical f o) ∧ HasBounds f o := by
  have bounds : ∀ kw (o o' : Obj), HasBounds f o → parametrize f kw o = .ok o' →
      HasBounds f o' := by
    rintro kw o o' hb h rfl
    obtain ⟨hl, hu⟩ := hb rfl
    simp only [parametrize, betaScaledParam] at h
    split at h <;> simp at h <;> subst h
    · cases kw "lower" <;> cases kw "upper" <;>
        simp [betaScaledUpdate, Obj.setAll, Obj.set, hl, hu]
    · exact ⟨hl, hu⟩
  have notConflict : ∀ kw (o o' : Obj), parametrize f kw o = .ok o' → guard f kw = false := by
    intro kw o o' hp
    by_contra hg
    rw [guard_error f kw o (by simpa using hg)] at hp
    simp at hp
  induction h with
  | @build kw o hd hc =>
    have main : ∀ (o₀ : Obj) kw', o₀.frozen = false → HasBounds f o₀ → InDom f kw' →
        parametrize f kw' o₀ = .ok o → (o.frozen = true → Canonical f o) ∧ HasBounds f o := by
      intro o₀ kw' h0 hb0 hd' hp
      refine ⟨fun hf => ?_, bounds _ _ _ hb0 hp⟩
      have := (outcome f kw' o₀ (notConflict _ _ _ hp) hd'.2.1).2 _ hp
      rw [h0] at this
      exact param_canonical f kw' o₀ o hd' (by simpa [hf] using this) hb0 hp
    cases f with
    | betaScaled =>
      refine main _ (fun k => if k = "lower" then some ((kw "lower").getD 0)
        else if k = "upper" then some ((kw "upper").getD 1) else kw k)
        (by rw [Obj.setAll_frozen]; rfl) ?_ ?_ hc
      · intro _; simp [Obj.setAll, Obj.set]
      · exact ⟨by simp [InRange, inRange], ⟨by simp, by simp⟩, by simp⟩
    | _ => exact main blank kw rfl (by simp [HasBounds]) hd hc
  | @reparam kw o o' _ hd hor hp ih =>
    refine ⟨fun hf => ?_, bounds _ _ _ ih.2 hp⟩
    have ho := (outcome f kw o (notConflict _ _ _ hp) hd.2.1).2 _ hp
    have hcomp : Complete f kw := by
      rcases hor with h0 | hc
      · rw [h0] at ho; simpa [hf] using ho
      · exact hc
    exact param_canonical f kw o o' hd hcomp ih.2 hp
  | @refit vals o o' _ hd hu ih =>
    constructor
    · intro _ hn
      have hn' : o.names ∈ exactNames f := by
        have : o'.names = o.names := by
          cases f with
          | simple s =>
            simp only [update] at hu
            split at hu <;> simp at hu
            subst hu; simp [simpleUpdate]
          | _ =>
            revert hu
            unfold update
            split <;> simp_all only [reduceCtorEq, false_implies, implies_true]
            all_goals
              rintro ⟨⟩
              simp only [asymLaplaceUpdate, bernoulliUpdate, betaUpdate, betaScaledUpdate,
                exponentialUpdate, gammaUpdate,
                halfNormalUpdate, halfStudentTUpdate, invGammaUpdate, kumaraswamyUpdate,
                normalUpdate, nbUpdate, riceUpdate, skewNormalUpdate, skewStudentTUpdate,
                studentTUpdate, waldUpdate, zinbUpdate, Obj.setAll_names, Obj.set_names] <;>
              (repeat' split) <;> simp
        rwa [this] at hn
      obtain ⟨h1, h2, -⟩ := update_report f vals o o' hn' hd hu
      refine ⟨vals, ?_, ?_⟩
      · rw [h1]; exact hd
      · rw [h1]; exact h2
    · intro hf
      subst hf
      match vals, hd with
      | [a, b, l, u], _ =>
        simp only [update, Except.ok.injEq] at hu
        subst hu
        simp [betaScaledUpdate, Obj.setAll, Obj.set]

end Verif.Param
