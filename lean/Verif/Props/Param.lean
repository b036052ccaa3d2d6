import Verif.Lemmas.Param4

/-!
# C05, C06, C07: constructor arguments, frozen state, rebuilding from `params_dict`
-/

set_option linter.unusedSimpArgs false

namespace Verif.Props
open Verif Verif.Param Verif.Spec

/-! ## C05 -/

/-- C05: arguments that do not fit in one documented parametrisation raise `ValueError`, whatever
the state of the object. -/
theorem conflict_rejected (f : Family) (kw : Kw) (o : Obj) (h : ¬ Compatible f kw) :
    parametrize f kw o = .error .valueError := by
  rw [compatible_iff_guard] at h
  exact guard_error f kw o (by simpa using h)

/-- a conflicting call exists -/
example : ¬ Compatible .beta (fun k => if k = "alpha" then some 1 else if k = "mu" then some 2 else none) := by
  simp [Compatible, args, ways, Way.plain]

/-- C05: the constructor raises `ValueError` on a conflict as well. -/
theorem conflict_rejected_construct (f : Family) (kw : Kw) (h : ¬ Compatible f kw) :
    construct f kw = .error .valueError := by
  cases f with
  | betaScaled => simp [Compatible, args, ways] at h
  | _ => exact conflict_rejected _ kw blank h

/-- C05: arguments from a single parametrisation never raise the conflict `ValueError` (any values,
also with other arguments missing), and inside the documented ranges no error at all. -/
theorem compatible_accepted (f : Family) (kw : Kw) (o : Obj) (h : Compatible f kw) :
    parametrize f kw o ≠ .error .valueError ∧
    (InRange f kw → ∃ o', parametrize f kw o = .ok o') := by
  rw [compatible_iff_guard] at h
  refine ⟨?_, inRange_ok f kw o h⟩
  intro he
  by_cases hr : Regular f kw
  · exact (outcome f kw o h hr).1 _ he rfl
  · cases f <;> simp [Regular] at hr
    · simp only [parametrize, kumaraswamyParam] at he
      split at he <;> simp at he
    · simp only [Param.guard] at h
      simp only [parametrize, zinbParam, h, Bool.false_eq_true, if_false] at he
      cases h1 : kw "mu" <;> cases h2 : kw "alpha" <;> cases h3 : kw "p" <;> cases h4 : kw "n" <;>
        simp [h1, h2, h3, h4, anyNotNone] at he h
      rename_i p n
      cases hn : nbFromNP n p with
      | error e =>
        have := nbFromNP_err n p e hn
        simp_all
      | ok a => simp_all

example : Compatible .beta (fun k => if k = "mu" then some 0.5 else if k = "nu" then some 2 else none) := by
  simp [Compatible, args, ways, Way.plain]

/-! ## C06 -/

/-- C06 is false of the code in two corners.  `Kumaraswamy(a=0)` is frozen although `b` is missing
(the test is `(a and b) is not None`), and `ZeroInflatedNegativeBinomial(mu=, alpha=)` is frozen
although `psi` is missing. -/
theorem frozen_though_incomplete :
    (∃ kw o, construct .kumaraswamy kw = .ok o ∧ o.frozen = true ∧ ¬ Complete .kumaraswamy kw) ∧
    (∃ kw o, construct .ziNegativeBinomial kw = .ok o ∧ o.frozen = true ∧
      ¬ Complete .ziNegativeBinomial kw) := by
  constructor
  · refine ⟨fun k => if k = "a" then some 0 else none, kumaraswamyUpdate (some 0) none
      { (blank.setAll [("a", some 0), ("b", none)]) with
        params := some [some 0, none], names := ["a", "b"] }, ?_, rfl, ?_⟩
    · simp [construct, parametrize, kumaraswamyParam, pyAnd]
    · simp [Complete, ways, Way.plain]
  · have : ∃ o, construct .ziNegativeBinomial
        (fun k => if k = "mu" then some 1 else if k = "alpha" then some 1 else none) = .ok o ∧
        o.frozen = true := by
      simp [construct, parametrize, zinbParam, anyNotNone]
    obtain ⟨o, h1, h2⟩ := this
    exact ⟨_, o, h1, h2, by simp [Complete, ways, Way.plain]⟩

/-- C06: in every other case a freshly constructed distribution is frozen exactly when the given
arguments determine it.  Missing (and false, see `frozen_though_incomplete`): `Kumaraswamy(a=0)` and
`ZeroInflatedNegativeBinomial` without `psi`. -/
theorem frozen_iff_complete_partial (f : Family) (kw : Kw) (o : Obj)
    (hk : f = .kumaraswamy → kw "a" ≠ some 0)
    (hz : f = .ziNegativeBinomial → (kw "psi").isSome)
    (h : construct f kw = .ok o) : o.frozen = true ↔ Complete f kw := by
  have hcomp : guard f kw = false := by
    by_contra hg
    have hg : guard f kw = true := by simpa using hg
    have : ¬ Compatible f kw := by rw [compatible_iff_guard, hg]; simp
    rw [conflict_rejected_construct f kw this] at h
    simp at h
  have gen : ∀ o₀ kw', o₀.frozen = false → guard f kw' = false → Regular f kw' →
      parametrize f kw' o₀ = .ok o → (o.frozen = true ↔ Complete f kw') := by
    intro o₀ kw' h0 hg hr hp
    have := (outcome f kw' o₀ hg hr).2 _ hp
    simpa [h0] using this
  cases f with
  | betaScaled =>
    have := gen _ (fun k => if k = "lower" then some ((kw "lower").getD 0)
      else if k = "upper" then some ((kw "upper").getD 1) else kw k)
      (by rw [Obj.setAll_frozen]; rfl) rfl ⟨by simp, by simp⟩ h
    simpa [Complete, ways] using this
  | _ => exact gen blank kw rfl hcomp ⟨hk, hz⟩ h

example : ∃ o, construct .gamma (fun k => if k = "mu" then some 2 else if k = "sigma" then some 1 else none)
    = .ok o ∧ o.frozen = true := by
  simp [construct, parametrize, gammaLikeParam, anyNotNone, gammaFromMuSigma]

/-- C06: on an object that already exists, `_parametrization` never un-freezes: afterwards the object
is frozen iff it was frozen or the arguments are complete. -/
theorem reparametrize_frozen (f : Family) (kw : Kw) (o o' : Obj)
    (hk : f = .kumaraswamy → kw "a" ≠ some 0)
    (hz : f = .ziNegativeBinomial → (kw "psi").isSome)
    (h : parametrize f kw o = .ok o') : o'.frozen = true ↔ o.frozen = true ∨ Complete f kw := by
  have hg : guard f kw = false := by
    by_contra hg
    rw [guard_error f kw o (by simpa using hg)] at h
    simp at h
  exact (outcome f kw o hg ⟨hk, hz⟩).2 _ h

/-! ## C07 -/

/-- C07: for every history, re-parametrising any object of the family (`o₂`, in any state) with the
`params_dict` of a frozen distribution gives the same parameter names, the same parameters, frozen.
Missing (false, see the two theorems below): precision parametrisations, and histories in which a
frozen object was re-parametrised with an incomplete set of arguments. -/
theorem params_dict_rebuilds_partial (f : Family) (o o₂ : Obj) (h : Reach f o)
    (hp : NoPrecision f o) (hf : o.frozen = true) :
    ∃ o', parametrize f o.paramsDict o₂ = .ok o' ∧ o'.names = o.names ∧ o'.params = o.params ∧
      o'.frozen = true := by
  obtain ⟨vals, hd, hpar⟩ := (reach_inv f o h).1 hf hp
  have := rebuild f o.names vals o₂ hp hd
  simpa [Obj.paramsDict, hpar] using this

/-- a non-trivial history: `Gamma(mu=2, sigma=1)`, refitted to `alpha = 3`, `beta = 5` -/
example : ∃ o, Reach .gamma o ∧ NoPrecision .gamma o ∧ o.frozen = true ∧
    o.names = ["mu", "sigma"] := by
  let kw : Kw := fun k => if k = "mu" then some 2 else if k = "sigma" then some 1 else none
  have hd : InDom .gamma kw := by
    refine ⟨?_, ⟨by simp, by simp⟩, by simp⟩
    intro k x hx
    simp only [kw] at hx
    split at hx
    · simp at hx; subst hx; simp [inRange]
    · split at hx
      · simp at hx; subst hx; simp [inRange]
      · simp at hx
  have hc : ∃ o, construct .gamma kw = .ok o := by
    simp [construct, parametrize, gammaLikeParam, anyNotNone, gammaFromMuSigma, kw]
  obtain ⟨o, ho⟩ := hc
  have hn : o.names = ["mu", "sigma"] := by
    simp [construct, parametrize, gammaLikeParam, anyNotNone, gammaFromMuSigma, kw,
      gammaUpdate] at ho
    subst ho; rfl
  refine ⟨gammaUpdate 3 5 o, .refit (vals := [3, 5]) (.build hd ho) (by simp [canonDom]) rfl, ?_, rfl, ?_⟩
  · simp [NoPrecision, gammaUpdate, hn, exactNames]
  · simp [gammaUpdate, hn]

/-- C07 fails for precision parametrisations: for every `mu` and `tau`, rebuilding
`Normal(mu, tau=tau)` from its own `params_dict` changes the parameters. -/
theorem precision_rebuild_drifts (mu tau : ℝ) (ht : 0 < tau) :
    ∃ o o', construct .normal
        (fun k => if k = "mu" then some mu else if k = "tau" then some tau else none) = .ok o ∧
      o.frozen = true ∧ parametrize .normal o.paramsDict o = .ok o' ∧ o'.params ≠ o.params := by
  have hs : 0 < 1 / Real.sqrt tau := by positivity
  have htp : 0 < toPrecision (1 / Real.sqrt tau) := by unfold toPrecision; have := eps_pos; positivity
  refine ⟨?o, ?o', ?_, ?_⟩
  · exact normalUpdate mu (1 / Real.sqrt tau)
      { ((blank.set "tau" (some tau)).setAll [("mu", some mu), ("sigma", some (1 / Real.sqrt tau))]) with
        names := ["mu", "tau"] }
  · exact normalUpdate mu (1 / Real.sqrt (toPrecision (1 / Real.sqrt tau)))
      { (((normalUpdate mu (1 / Real.sqrt tau)
      { ((blank.set "tau" (some tau)).setAll [("mu", some mu), ("sigma", some (1 / Real.sqrt tau))]) with
        names := ["mu", "tau"] }).set "tau" (some (toPrecision (1 / Real.sqrt tau)))).setAll
          [("mu", some mu), ("sigma", some (1 / Real.sqrt (toPrecision (1 / Real.sqrt tau))))]) with
        names := ["mu", "tau"] }
  · simp [construct, parametrize, normalParam, allNotNone, fromPrecision_ok ht]
  · refine ⟨rfl, ?_, ?_⟩
    · have hd : (normalUpdate mu (1 / Real.sqrt tau)
          { ((blank.set "tau" (some tau)).setAll
              [("mu", some mu), ("sigma", some (1 / Real.sqrt tau))]) with
            names := ["mu", "tau"] }).paramsDict =
          dictOf ["mu", "tau"] [some mu, some (toPrecision (1 / Real.sqrt tau))] := by
        simp [Obj.paramsDict, normalUpdate]
      rw [hd]
      have hf := fromPrecision_ok htp
      simp only [one_div] at hf
      simp [parametrize, normalParam, dictOf, List.lookup, allNotNone, hf]
    · obtain ⟨s, h1, h2⟩ := precision_not_round_trip _ htp
      rw [fromPrecision_ok htp, Except.ok.injEq] at h1
      rw [h1]
      simp only [normalUpdate, Obj.setAll_names]
      simp
      intro h3
      rw [one_div] at h2
      linarith

/-- C07 fails after an incomplete re-parametrisation of a frozen object: the names change, the stale
parameters stay, so `params_dict` reports a precision under the name `sigma`.  (Reachable from the
public API through `Truncated(Normal(0, tau=4), mu=3)`, which calls `dist._parametrization(mu=3)`.) -/
theorem stale_params_mislabelled :
    ∃ o o', construct .normal
        (fun k => if k = "mu" then some 0 else if k = "tau" then some 4 else none) = .ok o ∧
      parametrize .normal (fun k => if k = "mu" then some 3 else none) o = .ok o' ∧
      o'.frozen = true ∧ o'.names = ["mu", "sigma"] ∧ o'.params = o.params ∧
      o.names = ["mu", "tau"] ∧ o'.attr "sigma" = none ∧ o'.attr "mu" = some 3 ∧
      o'.paramsDict "mu" = some 0 := by
  refine ⟨?o, ?o', ?_, ?_⟩
  · exact normalUpdate 0 (1 / Real.sqrt 4)
      { ((blank.set "tau" (some 4)).setAll [("mu", some 0), ("sigma", some (1 / Real.sqrt 4))]) with
        names := ["mu", "tau"] }
  · exact { ((normalUpdate 0 (1 / Real.sqrt 4)
      { ((blank.set "tau" (some 4)).setAll [("mu", some 0), ("sigma", some (1 / Real.sqrt 4))]) with
        names := ["mu", "tau"] }).setAll [("mu", some 3), ("sigma", none)]) with
        names := ["mu", "sigma"] }
  · simp [construct, parametrize, normalParam, allNotNone, fromPrecision_ok (show (0:ℝ) < 4 by norm_num)]
  · refine ⟨?_, ?_, rfl, ?_, ?_, ?_, ?_, ?_⟩
    · simp [parametrize, normalParam, allNotNone]
    · simp [normalUpdate]
    · simp
    · simp [normalUpdate]
    · simp [Obj.setAll, Obj.set]
    · simp [Obj.setAll, Obj.set]
    · simp [Obj.paramsDict, dictOf, normalUpdate]

end Verif.Props
