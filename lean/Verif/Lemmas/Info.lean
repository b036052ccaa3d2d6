import Verif.Model.Info
import Verif.Lemmas.Param4

/-! Helper lemmas for C68: every frozen object is the result of `_update` with canonical values. -/

set_option linter.unusedSimpArgs false
set_option linter.unusedVariables false

namespace Verif.Info
open Verif Verif.Param Verif.Spec Verif.Props

/-- the object was last written by `_update` with canonical values in the domain -/
def Updated (f : Family) (o : Obj) : Prop :=
  ∃ vals o₁, canonDom f [] vals ∧ update f vals o₁ = .ok o

theorem updated_of {f : Family} {o : Obj} (vals : List ℝ) (o₁ : Obj) (hd : canonDom f [] vals)
    (h : update f vals o₁ = .ok o) : Updated f o := ⟨vals, o₁, hd, h⟩

theorem beta_updated (kw : Kw) (o o' : Obj) (hdom : InDom .beta kw)
    (hc : Complete .beta kw) (h : betaParam kw o = .ok o') : Updated .beta o' := by
  simp only [betaParam] at h
  split at h
  · simp at h
  · rename_i hg
    cases h3 : kw "mu" with
    | none =>
      cases h1 : kw "alpha" with
      | none => simp [Complete, ways, Way.plain, h1, h3] at hc
      | some a =>
        cases h2 : kw "beta" with
        | none => simp [Complete, ways, Way.plain, h2, h3] at hc
        | some b =>
          have hs : kw "sigma" = none := by
            cases hs : kw "sigma" <;> simp_all [anyNotNone, allNotNone]
          have hnu : kw "nu" = none := by
            cases hs : kw "nu" <;> simp_all [anyNotNone, allNotNone]
          simp [h1, h2, h3, hs, hnu, anyNotNone] at h
          subst h
          exact updated_of [a, b] _ ⟨hdom.1 _ _ h1, hdom.1 _ _ h2⟩ rfl
    | some m =>
      have hm : 0 < m ∧ m < 1 := hdom.1 _ _ h3
      cases h4 : kw "sigma" with
      | some s =>
        have hs : 0 < s := hdom.1 _ _ h4
        obtain ⟨a, b, hab, ha, hb, -, -, hto⟩ :=
          beta_from_mu_sigma m s hm.1 hm.2 hs (hdom.2.2 rfl m s h3 h4)
        simp [h3, h4, anyNotNone, hab] at h
        subst h
        exact updated_of [a, b] _ ⟨ha, hb⟩ rfl
      | none =>
        cases h5 : kw "nu" with
        | some n =>
          have hn : 0 < n := hdom.1 _ _ h5
          have := beta_from_mu_nu m n hm.1 hm.2 hn
          simp [h3, h4, h5, anyNotNone] at h
          subst h
          exact updated_of [m * n, (1 - m) * n] _ ⟨this.1, this.2.1⟩ rfl
        | none =>
          have h1 : kw "alpha" = none := by
            cases hs : kw "alpha" <;> simp_all [anyNotNone, allNotNone]
          simp [Complete, ways, Way.plain, h1, h4, h5] at hc

theorem gamma_updated (kw : Kw) (o o' : Obj) (hdom : InDom .gamma kw)
    (hc : Complete .gamma kw) (h : gammaLikeParam gammaFromMuSigma gammaUpdate kw o = .ok o') :
    Updated .gamma o' := by
  simp only [gammaLikeParam] at h
  split at h
  · simp at h
  · rename_i hg
    cases h3 : kw "mu" with
    | none =>
      have hs : kw "sigma" = none := by
        cases hs : kw "sigma" with
        | none => rfl
        | some s =>
          have h1 : kw "alpha" = none := by
            cases h1 : kw "alpha" <;> simp_all [anyNotNone]
          simp [Complete, ways, Way.plain, h1, h3] at hc
      cases h1 : kw "alpha" with
      | none => simp [Complete, ways, Way.plain, h1, h3] at hc
      | some a =>
        cases h2 : kw "beta" with
        | none => simp [Complete, ways, Way.plain, h2, h3] at hc
        | some b =>
          simp [h1, h2, h3, hs, anyNotNone] at h
          subst h
          exact updated_of [a, b] _ ⟨hdom.1 _ _ h1, hdom.1 _ _ h2⟩ rfl
    | some m =>
      have hm : 0 < m := hdom.1 _ _ h3
      cases h4 : kw "sigma" with
      | some s =>
        have hs : 0 < s := hdom.1 _ _ h4
        obtain ⟨a, b, hab, ha, hb, -, -, hto⟩ := gamma_from_mu_sigma m s hm hs
        simp [h3, h4, anyNotNone, hab] at h
        subst h
        exact updated_of [a, b] _ ⟨ha, hb⟩ rfl
      | none =>
        have h1 : kw "alpha" = none := by
          cases hs : kw "alpha" <;> simp_all [anyNotNone, allNotNone]
        simp [Complete, ways, Way.plain, h1, h4] at hc

theorem invgamma_updated (kw : Kw) (o o' : Obj) (hdom : InDom .inverseGamma kw)
    (hc : Complete .inverseGamma kw)
    (h : gammaLikeParam invGammaFromMuSigma invGammaUpdate kw o = .ok o') :
    Updated .inverseGamma o' := by
  simp only [gammaLikeParam] at h
  split at h
  · simp at h
  · rename_i hg
    cases h3 : kw "mu" with
    | none =>
      have hs : kw "sigma" = none := by
        cases hs : kw "sigma" with
        | none => rfl
        | some s =>
          have h1 : kw "alpha" = none := by
            cases h1 : kw "alpha" <;> simp_all [anyNotNone]
          simp [Complete, ways, Way.plain, h1, h3] at hc
      cases h1 : kw "alpha" with
      | none => simp [Complete, ways, Way.plain, h1, h3] at hc
      | some a =>
        cases h2 : kw "beta" with
        | none => simp [Complete, ways, Way.plain, h2, h3] at hc
        | some b =>
          simp [h1, h2, h3, hs, anyNotNone] at h
          subst h
          exact updated_of [a, b] _ ⟨hdom.1 _ _ h1, hdom.1 _ _ h2, by simp⟩ rfl
    | some m =>
      have hm : 0 < m := hdom.1 _ _ h3
      cases h4 : kw "sigma" with
      | some s =>
        have hs : 0 < s := hdom.1 _ _ h4
        obtain ⟨a, b, hab, ha, hb, -⟩ := invgamma_from_mu_sigma m s hm hs
        simp [h3, h4, anyNotNone, hab] at h
        subst h
        exact updated_of [a, b] _ ⟨by linarith, hb, by simp⟩ rfl
      | none =>
        have h1 : kw "alpha" = none := by
          cases hs : kw "alpha" <;> simp_all [anyNotNone, allNotNone]
        simp [Complete, ways, Way.plain, h1, h4] at hc

theorem nb_updated (kw : Kw) (o o' : Obj) (hdom : InDom .negativeBinomial kw)
    (hc : Complete .negativeBinomial kw) (h : nbParam kw o = .ok o') :
    Updated .negativeBinomial o' := by
  simp only [nbParam] at h
  split at h
  · simp at h
  · rename_i hg
    cases h3 : kw "p" with
    | none =>
      have hs : kw "n" = none := by
        cases hs : kw "n" with
        | none => rfl
        | some s =>
          have h1 : kw "mu" = none := by
            cases h1 : kw "mu" <;> simp_all [anyNotNone]
          simp [Complete, ways, Way.plain, h1, h3] at hc
      cases h1 : kw "mu" with
      | none => simp [Complete, ways, Way.plain, h1, h3] at hc
      | some a =>
        cases h2 : kw "alpha" with
        | none => simp [Complete, ways, Way.plain, h2, h3] at hc
        | some b =>
          simp [h1, h2, h3, hs, anyNotNone] at h
          subst h
          exact updated_of [a, b] _ ⟨hdom.1 _ _ h1, hdom.1 _ _ h2⟩ rfl
    | some p =>
      have hm : 0 < p ∧ p < 1 := hdom.1 _ _ h3
      cases h4 : kw "n" with
      | some n =>
        have hs : 0 < n := hdom.1 _ _ h4
        obtain ⟨a, b, hab, ha, hb, -⟩ := nb_from_to n p hs hm.1 hm.2
        simp [h3, h4, anyNotNone, hab] at h
        subst h
        exact updated_of [a, b] _ ⟨ha, hb⟩ rfl
      | none =>
        have h1 : kw "mu" = none := by
          cases hs : kw "mu" <;> simp_all [anyNotNone, allNotNone]
        simp [Complete, ways, Way.plain, h1, h4] at hc

theorem wald_updated (kw : Kw) (o o' : Obj) (hdom : InDom .wald kw)
    (hc : Complete .wald kw) (h : waldParam kw o = .ok o') : Updated .wald o' := by
  simp only [waldParam] at h
  split at h
  · simp at h
  · rename_i hg
    cases h3 : kw "phi" with
    | none =>
      cases h1 : kw "mu" with
      | none => simp [Complete, ways, Way.plain, h1, h3] at hc
      | some m =>
        cases h2 : kw "lam" with
        | none => simp [Complete, ways, Way.plain, h2, h3] at hc
        | some l =>
          simp [h1, h2, h3] at h
          subst h
          exact updated_of [m, l] _ ⟨hdom.1 _ _ h1, hdom.1 _ _ h2⟩ rfl
    | some p =>
      have hp : 0 < p := hdom.1 _ _ h3
      cases h1 : kw "mu" with
      | none =>
        cases h2 : kw "lam" with
        | none => simp [Complete, ways, Way.plain, h1, h2] at hc
        | some l =>
          have hl : 0 < l := hdom.1 _ _ h2
          simp [h1, h2, h3, pyAnd, hl.ne', waldFromLamPhi, pyDiv_ok hp.ne'] at h
          subst h
          exact updated_of [l / p, l] _ ⟨by positivity, hl⟩ rfl
      | some m =>
        have hm : 0 < m := hdom.1 _ _ h1
        have h2 : kw "lam" = none := by
          cases hs : kw "lam" <;> simp_all [allNotNone]
        simp [h1, h2, h3, pyAnd, hm.ne'] at h
        subst h
        exact updated_of [m, m * p] _ ⟨hm, by positivity⟩ rfl

theorem asymlaplace_updated (kw : Kw) (o o' : Obj) (hdom : InDom .asymmetricLaplace kw)
    (hc : Complete .asymmetricLaplace kw) (h : asymLaplaceParam kw o = .ok o') :
    Updated .asymmetricLaplace o' := by
  simp only [asymLaplaceParam] at h
  split at h
  · simp at h
  · rename_i hg
    cases h3 : kw "mu" with
    | none => simp [Complete, ways, Way.plain, h3] at hc
    | some m =>
      cases h4 : kw "b" with
      | none => simp [Complete, ways, Way.plain, h4] at hc
      | some b =>
        cases h2 : kw "q" with
        | none =>
          cases h1 : kw "kappa" with
          | none => simp [Complete, ways, Way.plain, h1, h2] at hc
          | some k =>
            simp [h1, h2, h3, h4] at h
            subst h
            exact updated_of [k, m, b] _ (hdom.1 _ _ h1) rfl
        | some q =>
          have hq : 0 < q ∧ q < 1 := hdom.1 _ _ h2
          obtain ⟨k, hk, hkp, -⟩ := asym_laplace_round_trips.1 q hq.1 hq.2
          simp [h2, h3, h4, hk] at h
          subst h
          exact updated_of [k, m, b] _ hkp rfl

theorem normal_updated (kw : Kw) (o o' : Obj) (htau : ∀ t, kw "tau" = some t → 0 < t)
    (hc : (kw "mu").isSome ∧ ((kw "sigma").isSome ∨ (kw "tau").isSome))
    (h : normalParam kw o = .ok o') : ∃ m s o₁, o' = normalUpdate m s o₁ := by
  simp only [normalParam] at h
  split at h
  · simp at h
  · cases h3 : kw "mu" with
    | none => simp [h3] at hc
    | some n =>
      cases h2 : kw "tau" with
      | none =>
        cases h1 : kw "sigma" with
        | none => simp [h1, h2] at hc
        | some s =>
          simp [h1, h2, h3] at h
          exact ⟨_, _, _, h.symm⟩
      | some t =>
        simp [h2, h3, fromPrecision_ok (htau t h2)] at h
        exact ⟨_, _, _, h.symm⟩

/-- a complete `_parametrization` of a family listed by `info` ends in `_update` -/
theorem param_updated (f : Family) (kw : Kw) (o o' : Obj) (hdom : InDom f kw)
    (hc : Complete f kw) (hl : parametrizations f ≠ none) (h : parametrize f kw o = .ok o') :
    Updated f o' := by
  cases f with
  | asymmetricLaplace => exact asymlaplace_updated kw o o' hdom hc h
  | bernoulli =>
    simp only [parametrize, bernoulliParam] at h
    split at h
    · simp at h
    · cases h2 : kw "logit_p" with
      | none =>
        cases h1 : kw "p" with
        | none => simp [Complete, ways, Way.plain, h1, h2] at hc
        | some p =>
          simp [h1, h2] at h
          subst h
          exact updated_of [p] _ (by simp [canonDom]) rfl
      | some l =>
        simp [h2] at h
        subst h
        exact updated_of [expit l] _ (by simp [canonDom]) rfl
  | beta => exact beta_updated kw o o' hdom hc h
  | exponential =>
    simp only [parametrize, exponentialParam] at h
    split at h
    · simp at h
    · cases h2 : kw "scale" with
      | none =>
        cases h1 : kw "lam" with
        | none => simp [Complete, ways, Way.plain, h1, h2] at hc
        | some p =>
          simp [h1, h2] at h
          subst h
          exact updated_of [p] _ (hdom.1 _ _ h1) rfl
      | some s =>
        have hs : 0 < s := hdom.1 _ _ h2
        simp [h2, pyDiv_ok hs.ne'] at h
        subst h
        exact updated_of [s⁻¹] _ (inv_pos.mpr hs) rfl
  | gamma => exact gamma_updated kw o o' hdom hc h
  | inverseGamma => exact invgamma_updated kw o o' hdom hc h
  | negativeBinomial => exact nb_updated kw o o' hdom hc h
  | wald => exact wald_updated kw o o' hdom hc h
  | halfNormal =>
    simp only [parametrize, halfNormalParam] at h
    split at h
    · simp at h
    · cases h2 : kw "tau" with
      | none =>
        cases h1 : kw "sigma" with
        | none => simp [Complete, ways, Way.plain, h1, h2] at hc
        | some s =>
          simp [h1, h2] at h
          subst h
          exact updated_of [s] _ trivial rfl
      | some t =>
        have ht : 0 < t := hdom.1 _ _ h2
        simp [h2, fromPrecision_ok ht] at h
        subst h
        exact updated_of [_] _ trivial rfl
  | halfStudentT =>
    simp only [parametrize, halfStudentTParam] at h
    split at h
    · simp at h
    · cases h3 : kw "nu" with
      | none => simp [Complete, ways, Way.plain, h3] at hc
      | some n =>
        cases h2 : kw "lam" with
        | none =>
          cases h1 : kw "sigma" with
          | none => simp [Complete, ways, Way.plain, h1, h2] at hc
          | some s =>
            simp [h1, h2, h3] at h
            subst h
            exact updated_of [n, s] _ trivial rfl
        | some t =>
          have ht : 0 < t := hdom.1 _ _ h2
          simp [h2, h3, fromPrecision_ok ht] at h
          subst h
          exact updated_of [n, _] _ trivial rfl
  | logitNormal =>
    obtain ⟨m, s, o₁, rfl⟩ := normal_updated kw o o' (fun t ht => hdom.1 _ _ ht)
      (by simp [Complete, ways, Way.plain] at hc; tauto) h
    exact updated_of [m, s] o₁ trivial rfl
  | normal =>
    obtain ⟨m, s, o₁, rfl⟩ := normal_updated kw o o' (fun t ht => hdom.1 _ _ ht)
      (by simp [Complete, ways, Way.plain] at hc; tauto) h
    exact updated_of [m, s] o₁ trivial rfl
  | studentT =>
    simp only [parametrize, studentTParam] at h
    split at h
    · simp at h
    · cases h3 : kw "mu" with
      | none => simp [Complete, ways, Way.plain, h3] at hc
      | some n =>
        cases h4 : kw "nu" with
        | none => simp [Complete, ways, Way.plain, h4] at hc
        | some nu =>
          cases h2 : kw "lam" with
          | none =>
            cases h1 : kw "sigma" with
            | none => simp [Complete, ways, Way.plain, h1, h2] at hc
            | some s =>
              simp [h1, h2, h3, h4] at h
              subst h
              exact updated_of [nu, n, s] _ trivial rfl
          | some t =>
            have ht : 0 < t := hdom.1 _ _ h2
            simp [h2, h3, h4, fromPrecision_ok ht] at h
            subst h
            exact updated_of [nu, n, _] _ trivial rfl
  | _ => simp [parametrizations] at hl

theorem canonDom_nil (f : Family) (names : List String) (vals : List ℝ)
    (h : canonDom f names vals) : canonDom f [] vals := by
  cases f <;> revert h <;> unfold canonDom <;> split <;> simp_all

/-- every frozen object of a listed family, whatever its history, is the result of `_update` -/
theorem reach_updated (f : Family) (o : Obj) (hl : parametrizations f ≠ none) (h : Reach f o)
    (hf : o.frozen = true) : Updated f o := by
  have notConflict : ∀ kw (o o' : Obj), parametrize f kw o = .ok o' → guard f kw = false := by
    intro kw o o' hp
    by_contra hg
    rw [guard_error f kw o (by simpa using hg)] at hp
    simp at hp
  cases h with
  | @build kw o hd hc =>
    have hp : parametrize f kw blank = .ok o := by
      cases f <;> first | exact hc | simp [parametrizations] at hl
    have := (outcome f kw blank (notConflict _ _ _ hp) hd.2.1).2 _ hp
    exact param_updated f kw _ o hd (by simpa [hf, blank] using this) hl hp
  | @reparam kw o₀ o hr hd hor hp =>
    have ho := (outcome f kw o₀ (notConflict _ _ _ hp) hd.2.1).2 _ hp
    have hcomp : Complete f kw := by
      rcases hor with h0 | hc
      · rw [h0] at ho; simpa [hf] using ho
      · exact hc
    exact param_updated f kw o₀ o hd hcomp hl hp
  | @refit vals o₀ o hr hd hu => exact ⟨vals, o₀, canonDom_nil _ _ _ hd, hu⟩

/-- `_update` with given values determines the table of `info`, whatever the object was before. -/
theorem table_congr (f : Family) (vals : List ℝ) (o₁ o₂ a b : Obj)
    (ha : update f vals o₁ = .ok a) (hb : update f vals o₂ = .ok b) :
    parametrizationValues f a = parametrizationValues f b := by
  cases f <;> try rfl
  all_goals
    revert ha hb
    unfold update
    split <;> simp_all only [false_implies, reduceCtorEq, implies_true, Except.ok.injEq]
    all_goals
      rintro rfl rfl
      simp only [parametrizationValues, parametrizations, asymLaplaceUpdate,
        bernoulliUpdate, betaUpdate, exponentialUpdate, gammaUpdate, halfNormalUpdate,
        halfStudentTUpdate, invGammaUpdate, normalUpdate, nbUpdate, studentTUpdate, waldUpdate,
        apply_ite Obj.attr, ite_self]
      simp [Obj.setAll, Obj.set]

/-- the attributes `_update` stores are the report of its arguments -/
theorem attr_report (f : Family) (vals : List ℝ) (o₁ a : Obj) (ps : List String)
    (hl : parametrizations f ≠ none) (hd : canonDom f [] vals) (hp : ps ∈ exactNames f)
    (ha : update f vals o₁ = .ok a) : ps.map a.attr = report f ps vals := by
  cases f <;> try (simp [parametrizations] at hl; done)
  all_goals
    simp only [exactNames, List.mem_cons, List.not_mem_nil, or_false] at hp
    revert ha hd
    unfold update canonDom
    split <;> simp_all only [false_implies, reduceCtorEq, implies_true, Except.ok.injEq]
    all_goals
      rintro - rfl
      simp only [asymLaplaceUpdate,
        bernoulliUpdate, betaUpdate, exponentialUpdate, gammaUpdate, halfNormalUpdate,
        halfStudentTUpdate, invGammaUpdate, normalUpdate, nbUpdate, studentTUpdate, waldUpdate,
        apply_ite Obj.attr, ite_self]
      (try casesm* _ ∨ _) <;> subst_vars <;> simp [Obj.setAll, Obj.set, report]

theorem canonDom_of_report (f : Family) (vals : List ℝ) (ps : List String)
    (hd : canonDom f [] vals) (hv : ∀ v ∈ report f ps vals, v.isSome) : canonDom f ps vals := by
  cases f with
  | bernoulli =>
    match vals, hd with
    | [p], _ =>
      rintro rfl
      simp only [report, if_true, List.mem_singleton, forall_eq, logit] at hv
      split_ifs at hv with h1 h2 h3 <;> simp at hv
      push Not at h3
      exact ⟨lt_of_le_of_ne h3.1 (Ne.symm h1), lt_of_le_of_ne h3.2 h2⟩
  | inverseGamma =>
    match vals, hd with
    | [a, b], hd =>
      refine ⟨hd.1, hd.2.1, ?_⟩
      rintro rfl
      by_contra h
      have := (invgamma_undefined a b).2 (not_lt.mp h)
      simp [report, this] at hv
  | _ =>
    revert hd
    unfold canonDom
    split <;> simp_all

/-- rebuilding from a report is an `_update` with the same values -/
theorem rebuild_updated (f : Family) (names : List String) (vals : List ℝ) (o₂ : Obj)
    (hl : parametrizations f ≠ none) (hn : names ∈ exactNames f) (hd : canonDom f names vals) :
    ∃ o₁, parametrize f (dictOf names (report f names vals)) o₂ = update f vals o₁ := by
  cases f with
  | asymmetricLaplace =>
    match vals, hd with
    | [k, m, b], hd =>
      have hk : 0 < k := hd
      have hq := asym_laplace_round_trips.2 k hk
      simp only [exactNames, List.mem_cons, List.not_mem_nil, or_false] at hn
      rcases hn with rfl | rfl <;>
        simp [parametrize, asymLaplaceParam, report, dictOf, allNotNone, List.lookup, hq.2.2,
          update]
  | bernoulli =>
    match vals, hd with
    | [p], hd =>
      simp only [exactNames, List.mem_cons, List.not_mem_nil, or_false] at hn
      rcases hn with rfl | rfl
      · simp [parametrize, bernoulliParam, report, dictOf, allNotNone, List.lookup, update]
      · have hp := hd rfl
        obtain ⟨x, hx, hx'⟩ := expit_logit p hp.1 hp.2
        simp [parametrize, bernoulliParam, report, dictOf, allNotNone, List.lookup, update, hx, hx']
  | beta =>
    match vals, hd with
    | [a, b], hd =>
      have hb := beta_to_from a b hd.1 hd.2
      simp only at hb
      simp only [exactNames, List.mem_cons, List.not_mem_nil, or_false] at hn
      rcases hn with rfl | rfl | rfl
      · simp [parametrize, betaParam, report, dictOf, allNotNone, anyNotNone, List.lookup, update]
      · simp [parametrize, betaParam, report, dictOf, allNotNone, anyNotNone, List.lookup, update,
          hb.2.2.2.2.1]
      · simp [parametrize, betaParam, report, dictOf, allNotNone, anyNotNone, List.lookup, update,
          hb.2.2.2.1, hb.2.2.2.2.2.1]
  | exponential =>
    match vals, hd with
    | [l], hd =>
      have hl : 0 < l := hd
      simp only [exactNames, List.mem_cons, List.not_mem_nil, or_false] at hn
      have := exponential_round_trips.2 l hl
      rw [one_div] at this
      rcases hn with rfl | rfl <;>
        simp [parametrize, exponentialParam, report, dictOf, allNotNone, List.lookup,
          update, this]
  | gamma =>
    match vals, hd with
    | [a, b], hd =>
      have hb := gamma_to_from a b hd.1 hd.2
      simp only at hb
      simp only [exactNames, List.mem_cons, List.not_mem_nil, or_false] at hn
      rcases hn with rfl | rfl <;>
        simp [parametrize, gammaLikeParam, report, dictOf, allNotNone, anyNotNone, List.lookup,
          update, hb.2.2.2.2]
  | halfNormal =>
    match vals, hd with
    | [s], hd =>
      simp only [exactNames, List.mem_cons, List.not_mem_nil, or_false] at hn
      subst hn
      simp [parametrize, halfNormalParam, report, dictOf, allNotNone, List.lookup, update]
  | halfStudentT =>
    match vals, hd with
    | [n, s], hd =>
      simp only [exactNames, List.mem_cons, List.not_mem_nil, or_false] at hn
      subst hn
      simp [parametrize, halfStudentTParam, report, dictOf, allNotNone, List.lookup, update]
  | inverseGamma =>
    match vals, hd with
    | [a, b], hd =>
      simp only [exactNames, List.mem_cons, List.not_mem_nil, or_false] at hn
      rcases hn with rfl | rfl
      · simp [parametrize, gammaLikeParam, report, dictOf, allNotNone, anyNotNone, List.lookup,
          update]
      · obtain ⟨m, s, hm, hs, -, -, -, -, hr⟩ := invgamma_to_from a b (hd.2.2 rfl) hd.2.1
        simp [parametrize, gammaLikeParam, report, dictOf, allNotNone, anyNotNone, List.lookup,
          update, hm, hs, hr]
  | logitNormal =>
    match vals, hd with
    | [n, s], hd =>
      simp only [exactNames, List.mem_cons, List.not_mem_nil, or_false] at hn
      subst hn
      simp [parametrize, normalParam, report, dictOf, allNotNone, List.lookup, update]
  | normal =>
    match vals, hd with
    | [n, s], hd =>
      simp only [exactNames, List.mem_cons, List.not_mem_nil, or_false] at hn
      subst hn
      simp [parametrize, normalParam, report, dictOf, allNotNone, List.lookup, update]
  | negativeBinomial =>
    match vals, hd with
    | [m, a], hd =>
      have hb := nb_to_from m a hd.1 hd.2
      simp only at hb
      simp only [exactNames, List.mem_cons, List.not_mem_nil, or_false] at hn
      rcases hn with rfl | rfl <;>
        simp [parametrize, nbParam, report, dictOf, allNotNone, anyNotNone, List.lookup,
          update, hb.2.2.2]
  | studentT =>
    match vals, hd with
    | [n, m, s], hd =>
      simp only [exactNames, List.mem_cons, List.not_mem_nil, or_false] at hn
      subst hn
      simp [parametrize, studentTParam, report, dictOf, allNotNone, List.lookup, update]
  | wald =>
    match vals, hd with
    | [m, l], hd =>
      have hw := wald_round_trips m l 1 hd.1 hd.2 one_pos
      have hp : 0 < waldToPhi m l := div_pos hd.2 hd.1
      have hm : m ≠ 0 := hd.1.ne'
      have hl : l ≠ 0 := hd.2.ne'
      simp only [exactNames, List.mem_cons, List.not_mem_nil, or_false] at hn
      rcases hn with rfl | rfl | rfl <;>
        simp [parametrize, waldParam, report, dictOf, allNotNone, List.lookup, update, pyAnd, hm,
          hl, hw.2.1, hw.2.2.2]
  | _ => simp [parametrizations] at hl

theorem updated_frozen (f : Family) (vals : List ℝ) (o₁ a : Obj) (hl : parametrizations f ≠ none)
    (ha : update f vals o₁ = .ok a) : a.frozen = true := by
  cases f <;> try (simp [parametrizations] at hl; done)
  all_goals
    revert ha
    unfold update
    split <;> simp_all only [false_implies, reduceCtorEq, implies_true, Except.ok.injEq]
    all_goals rintro rfl; simp

theorem rows_present (f : Family) (vals : List ℝ) (o₁ a : Obj)
    (h1 : f ≠ .bernoulli) (h2 : f ≠ .inverseGamma) (ha : update f vals o₁ = .ok a)
    (table : List (List String × List (Option ℝ))) (ht : parametrizationValues f a = some table) :
    ∀ row ∈ table, ∀ v ∈ row.2, v.isSome := by
  revert ht
  cases f <;> try (simp [parametrizationValues, parametrizations]; done)
  all_goals try contradiction
  all_goals
    unfold update at ha
    split at ha <;> simp_all only [false_implies, reduceCtorEq, implies_true, Except.ok.injEq]
    all_goals
      subst ha
      simp only [parametrizationValues, parametrizations, asymLaplaceUpdate,
        betaUpdate, exponentialUpdate, gammaUpdate, halfNormalUpdate,
        halfStudentTUpdate, normalUpdate, nbUpdate, studentTUpdate, waldUpdate,
        apply_ite Obj.attr, ite_self]
      simp only [if_true, Option.some.injEq]
      rintro rfl
      simp [Obj.setAll, Obj.set]

end Verif.Info
