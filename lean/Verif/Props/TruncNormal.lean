import Verif.Model.TruncNormal
import Verif.Lemmas.TruncNormal

/-!
# C109: bounds of a TruncatedNormal that are not given are infinite and stay so
-/

namespace Verif.Props
open Verif Verif.TruncNormal Verif.Spec MeasureTheory

/-- whatever the object was before: the bounds and the support are the given bounds, infinite where not given; `mu`, `sigma`
are the given ones -/
theorem tn_bounds (a : Args) (o : Obj) :
    (parametrize a o).lower = a.lower.getD ⊥ ∧ (parametrize a o).upper = a.upper.getD ⊤ ∧
    (parametrize a o).support = (a.lower.getD ⊥, a.upper.getD ⊤) ∧
    (parametrize a o).mu = a.mu ∧ (parametrize a o).sigma = a.sigma ∧
    (parametrize a o).params = [a.mu, a.sigma, a.lower, a.upper] := by
  obtain ⟨m, s, l, u⟩ := a
  cases m <;> cases s <;> cases l <;> cases u <;> simp [parametrize, update]

/-- a new object is complete exactly when all four are given -/
theorem tn_frozen (a : Args) : (construct a).frozen = true ↔
    a.mu ≠ none ∧ a.sigma ≠ none ∧ a.lower ≠ none ∧ a.upper ≠ none := by
  obtain ⟨m, s, l, u⟩ := a
  cases m <;> cases s <;> cases l <;> cases u <;> simp [construct, parametrize, update, blank]

/-- an object that was complete once stays so, whatever is given later -/
theorem tn_frozen_stays (a : Args) (o : Obj) (h : o.frozen = true) : (parametrize a o).frozen = true := by
  obtain ⟨m, s, l, u⟩ := a
  cases m <;> cases s <;> cases l <;> cases u <;> simp [parametrize, update, h]

/-- the parameters searched over are the missing ones among `mu` and `sigma`; a missing bound never is -/
theorem tn_free (a : Args) (o : Obj) (i : ℕ) : i ∈ (getFixedParams (parametrize a o)).1 ↔
    (i = 0 ∧ a.mu = none) ∨ (i = 1 ∧ a.sigma = none) := by
  obtain ⟨m, s, l, u⟩ := a
  cases m <;> cases s <;> cases l <;> cases u <;>
    simp [parametrize, update, getFixedParams, names, List.zipIdx, Optim.splitStep, attr]

/-- the outcome of an elicitation for every answer of the optimiser: given values are kept, the missing ones of `mu` and `sigma`
are the answer, missing bounds are infinite, and the object is complete -/
theorem tn_elicit (a : Args) (o : Obj) (mean sigma : EReal) (x : List EReal)
    (hx : x.length = (if a.mu = none then 1 else 0) + (if a.sigma = none then 1 else 0)) :
    ∃ o', elicit mean sigma x (parametrize a o) = .ok o' ∧ o'.frozen = true ∧
      o'.mu = a.mu.or x.head? ∧ o'.sigma = a.sigma.or x.getLast? ∧
      o'.lower = a.lower.getD ⊥ ∧ o'.upper = a.upper.getD ⊤ ∧ o'.support = (a.lower.getD ⊥, a.upper.getD ⊤) ∧
      o'.params = [a.mu.or x.head?, a.sigma.or x.getLast?, some (a.lower.getD ⊥), some (a.upper.getD ⊤)] := by
  obtain ⟨m, s, l, u⟩ := a
  rcases m with _ | m <;> rcases s with _ | s
  · obtain ⟨p, q, rfl⟩ := List.length_eq_two.mp (by simpa using hx)
    cases l <;> cases u <;>
      simp [elicit, parametrize, update, getFixedParams, names, List.zipIdx, Optim.splitStep, attr, Optim.getParams,
        Optim.getParamsFrom, Except.map, fromKw, fitMoments, bind, Except.bind, pure, Except.pure, List.lookup] <;> decide
  · obtain ⟨p, rfl⟩ := List.length_eq_one_iff.mp (by simpa using hx)
    cases l <;> cases u <;>
      simp [elicit, parametrize, update, getFixedParams, names, List.zipIdx, Optim.splitStep, attr, Optim.getParams,
        Optim.getParamsFrom, Except.map, fromKw, fitMoments, bind, Except.bind, pure, Except.pure, List.lookup] <;> decide
  · obtain ⟨p, rfl⟩ := List.length_eq_one_iff.mp (by simpa using hx)
    cases l <;> cases u <;>
      simp [elicit, parametrize, update, getFixedParams, names, List.zipIdx, Optim.splitStep, attr, Optim.getParams,
        Optim.getParamsFrom, Except.map, fromKw, fitMoments, bind, Except.bind, pure, Except.pure, List.lookup] <;> decide
  · obtain rfl := List.length_eq_zero_iff.mp (by simpa using hx)
    cases l <;> cases u <;>
      simp [elicit, parametrize, update, getFixedParams, names, List.zipIdx, Optim.splitStep, attr, Optim.getParams,
        Optim.getParamsFrom, Except.map, fromKw, fitMoments, bind, Except.bind, pure, Except.pure, List.lookup] <;> decide

/-- one bound given, the other not: after any answer the support is still `[0, ∞)` -/
example : ∃ o', elicit 1 2 [3, 4] (construct ⟨none, none, some 0, none⟩) = .ok o' ∧ o'.support = (0, ⊤) ∧
    o'.mu = some 3 ∧ o'.sigma = some 4 := by
  obtain ⟨o', h, _, hm, hs, _, _, hsup, _⟩ := tn_elicit ⟨none, none, some 0, none⟩ blank 1 2 [3, 4] (by simp)
  exact ⟨o', h, by simpa using hsup, by simpa using hm, by simpa using hs⟩

/-- with `mu` and `sigma` given and no bound, nothing is left to search over, yet the object is not complete -/
theorem tn_two_given (m s : EReal) :
    (construct ⟨some m, some s, none, none⟩).frozen = false ∧
    (getFixedParams (construct ⟨some m, some s, none, none⟩)).1 = [] ∧
    (construct ⟨some m, some s, none, none⟩).support = (⊥, ⊤) := by
  refine ⟨by simp [construct, parametrize, blank], ?_, (tn_bounds _ _).2.2.1⟩
  exact List.eq_nil_iff_forall_not_mem.mpr fun i hi => by simpa using (tn_free _ _ i).mp hi

/-- the law of a complete object -/
noncomputable def tnLaw (o : Obj) : Option (Measure ℝ) :=
  match o.mu, o.sigma with
  | some m, some s => some (ofPdf (truncNormalPdf m.toReal s.toReal o.lower o.upper))
  | _, _ => none

/-- the documented mean and variance are those of the documented density, whichever bounds are infinite -/
theorem tn_documented (m s : ℝ) (hs : 0 < s) (l u : EReal) (h : l < u) :
    HasMoments (ofPdf (truncNormalPdf m s l u)) (truncNormalMean m s l u) (truncNormalVar m s l u) := Law.truncNormal hs h

private theorem atEnd_pos {m s : ℝ} (hs : 0 < s) {b : EReal} (h1 : b ≠ ⊥) (h2 : b ≠ ⊤) : 0 < phiAt m s b := by
  rw [Law.phiAt_eq hs]
  simp only [Law.atEnd, h1, h2, or_self, if_false]
  exact mul_pos hs (Law.normal_pdf_pos hs _ _)

private theorem atEnd_zero {m s : ℝ} {b : EReal} (h : b = ⊥ ∨ b = ⊤) : phiAt m s b = 0 := by simp [phiAt, h]

private theorem phi_inj {m s : ℝ} (hs : 0 < s) {l u : ℝ} (h : l < u) (e : phiAt m s l = phiAt m s u) :
    l - m = -(u - m) := by
  simp only [phiAt, EReal.coe_ne_bot, EReal.coe_ne_top, or_self, if_false, EReal.toReal_coe, normalPdf] at e
  have hpi := Real.pi_pos
  have e2 := mul_left_cancel₀ (by positivity) e
  have e3 := Real.exp_injective e2
  have e4 : (l - m) ^ 2 = (u - m) ^ 2 := by
    field_simp at e3
    linarith
  rcases sq_eq_sq_iff_eq_or_eq_neg.mp e4 with h5 | h5
  · linarith
  · exact h5

/-- `_fit_moments` keeps the bounds and takes the requested mean and standard deviation for `mu` and `sigma`: the requested
moments are met exactly when both bounds are infinite -/
theorem tn_moments (o : Obj) (hb : o.lower < o.upper) (m s : ℝ) (hs : 0 < s) :
    (fitMoments m s o).lower = o.lower ∧ (fitMoments m s o).upper = o.upper ∧ (fitMoments m s o).support = (o.lower, o.upper) ∧
    ∃ P, tnLaw (fitMoments m s o) = some P ∧ (HasMoments P m (s ^ 2) ↔ o.lower = ⊥ ∧ o.upper = ⊤) := by
  refine ⟨rfl, rfl, rfl, _, rfl, ?_⟩
  change HasMoments (ofPdf (truncNormalPdf m s o.lower o.upper)) m (s ^ 2) ↔ _
  generalize o.lower = l at *
  generalize o.upper = u at *
  have H := Law.truncNormal (m := m) hs hb
  obtain ⟨hZ, _, _⟩ := Law.truncRaw (m := m) hs hb
  constructor
  · intro K
    have e1 : truncNormalMean m s l u = m := H.mean.symm.trans K.mean
    have e2 : truncNormalVar m s l u = s ^ 2 := by rw [← H.var, ← K.var, e1]
    unfold truncNormalMean at e1
    have e3 : phiAt m s l = phiAt m s u := by
      have : (phiAt m s l - phiAt m s u) / massBetween m s l u * s = 0 := by linarith
      simp only [mul_eq_zero, div_eq_zero_iff, hs.ne', hZ.ne', or_false] at this
      linarith
    have hl : l ≠ ⊤ := ne_top_of_lt hb
    have hu : u ≠ ⊥ := ne_bot_of_gt hb
    by_cases h1 : l = ⊥
    · refine ⟨h1, ?_⟩
      by_contra h2
      rw [atEnd_zero (Or.inl h1)] at e3
      exact absurd e3.symm (atEnd_pos hs hu h2).ne'
    · exfalso
      by_cases h2 : u = ⊤
      · rw [atEnd_zero (b := u) (Or.inr h2)] at e3
        exact absurd e3 (atEnd_pos hs h1 hl).ne'
      · lift l to ℝ using ⟨hl, h1⟩
        lift u to ℝ using ⟨h2, hu⟩
        have hlu := EReal.coe_lt_coe_iff.mp hb
        have e4 := phi_inj hs hlu e3
        unfold truncNormalVar alphaPhiAt at e2
        rw [e3] at e2
        simp only [EReal.toReal_coe, e4] at e2
        have hp : 0 < phiAt m s (u : EReal) := atEnd_pos hs hu h2
        have hum : 0 < u - m := by linarith
        have : s ^ 2 * (2 * ((u - m) / s * phiAt m s u) / massBetween m s l u) = 0 := by
          have : s ^ 2 * (1 + (-(u - m) / s * phiAt m s u - (u - m) / s * phiAt m s u) / massBetween m s l u -
            ((phiAt m s u - phiAt m s u) / massBetween m s l u) ^ 2) =
            s ^ 2 - s ^ 2 * (2 * ((u - m) / s * phiAt m s u) / massBetween m s l u) := by
              rw [sub_self, zero_div]; ring
          linarith
        have pos : 0 < s ^ 2 * (2 * ((u - m) / s * phiAt m s u) / massBetween m s l u) := by positivity
        exact absurd this pos.ne'
  · rintro ⟨rfl, rfl⟩
    have e1 : truncNormalMean m s ⊥ ⊤ = m := by simp [truncNormalMean, phiAt]
    have e2 : truncNormalVar m s ⊥ ⊤ = s ^ 2 := by simp [truncNormalVar, alphaPhiAt, phiAt]
    rwa [e1, e2] at H

/-- with a lower bound at zero the start does not have the requested mean and spread -/
example : ∃ P, tnLaw (fitMoments (1 : ℝ) (2 : ℝ) (construct ⟨none, none, some 0, none⟩)) = some P ∧
    ¬ HasMoments P 1 (2 ^ 2) := by
  obtain ⟨_, _, _, P, hP, h⟩ := tn_moments (construct ⟨none, none, some 0, none⟩) (by simp [construct, parametrize]) 1 2 two_pos
  exact ⟨P, hP, fun K => by simpa [construct, parametrize] using (h.mp K).1⟩

/-- the maximum likelihood fit takes no notice of the object it is given: bounds, `mu` and `sigma` of the user are dropped, the
data always count as inside, and the search over all four parameters starts from the range and the moments of the sample -/
theorem tn_mle_ignores (lo hi mean std : EReal) (x : List EReal → EReal × EReal × EReal × EReal) (o : Obj) :
    fitSample lo hi mean std x o = some
      ⟨some (x [mean, std, lo, hi]).1, some (x [mean, std, lo, hi]).2.1, (x [mean, std, lo, hi]).2.2.1,
        (x [mean, std, lo, hi]).2.2.2,
        [some (x [mean, std, lo, hi]).1, some (x [mean, std, lo, hi]).2.1, some (x [mean, std, lo, hi]).2.2.1,
          some (x [mean, std, lo, hi]).2.2.2],
        ((x [mean, std, lo, hi]).2.2.1, (x [mean, std, lo, hi]).2.2.2), true⟩ := by
  simp [fitSample, setBounds, Optim.insideEndpoints, fitMle, mleStart, fitMoments, update]

/-- in contrast to an elicitation, a bound given by the user does not survive -/
theorem tn_mle_drops_bound : ∃ (a : Args) (x : List EReal → EReal × EReal × EReal × EReal) (o' : Obj),
    a.lower = some 0 ∧ fitSample 1 2 1 1 x (construct a) = some o' ∧ o'.lower ≠ 0 :=
  ⟨⟨none, none, some 0, none⟩, fun _ => (1, 1, 1, 2), _, rfl, tn_mle_ignores _ _ _ _ _ _, by simp⟩

end Verif.Props
