import Verif.Lemmas.ModifierBase

namespace Verif.Modifier
open Verif MeasureTheory Verif.Spec

theorem expOf_logOf {p : ℝ} (h : 0 ≤ p) : expOf (logOf p) = p := by
  unfold logOf
  by_cases h0 : p = 0
  · simp [h0, expOf]
  · simp only [h0, if_false, expOf]
    exact Real.exp_log (lt_of_le_of_ne h (Ne.symm h0))

theorem clip_coe {L U : EReal} (hL : L ≠ ⊤) (hU : U ≠ ⊥) (y : ℝ) :
    ((clipFn L U y : ℝ) : EReal) = max L (min U (y : EReal)) := by
  unfold clipFn
  apply EReal.coe_toReal
  · intro h
    rcases max_eq_iff.1 h with ⟨h, _⟩ | ⟨h, _⟩
    · exact hL h
    · have : (⊤ : EReal) ≤ (y : EReal) := h ▸ min_le_right _ _
      simp at this
  · intro h
    have h2 : min U (y : EReal) ≤ ⊥ := h ▸ le_max_right _ _
    rcases min_le_iff.1 h2 with h | h
    · exact hU (le_bot_iff.1 h)
    · simp at h

theorem clip_le_iff {L U : EReal} (hLU : L ≤ U) (hL : L ≠ ⊤) (hU : U ≠ ⊥) (y x : ℝ) :
    clipFn L U y ≤ x ↔ U ≤ (x : EReal) ∨ (L ≤ (x : EReal) ∧ y ≤ x) := by
  rw [← EReal.coe_le_coe_iff, clip_coe hL hU, max_le_iff, min_le_iff, EReal.coe_le_coe_iff]
  constructor
  · rintro ⟨h1, h2 | h2⟩
    · exact Or.inl h2
    · exact Or.inr ⟨h1, h2⟩
  · rintro (h | ⟨h1, h2⟩)
    · exact ⟨hLU.trans h, Or.inl h⟩
    · exact ⟨h1, Or.inr h2⟩

theorem clip_meas (L U : EReal) : Measurable (clipFn L U) := by
  unfold clipFn
  exact measurable_ereal_toReal.comp
    (measurable_const.max (measurable_const.min measurable_coe_real_ereal))

/-- value of the clip in the three regions -/
theorem clip_low {L U : EReal} (hLU : L ≤ U) {y : ℝ} (h : (y : EReal) ≤ L) :
    clipFn L U y = L.toReal := by
  unfold clipFn; rw [min_eq_right (h.trans hLU), max_eq_left h]
theorem clip_mid {L U : EReal} {y : ℝ} (h : L ≤ (y : EReal)) (h' : (y : EReal) ≤ U) :
    clipFn L U y = y := by
  unfold clipFn; rw [min_eq_right h', max_eq_right h]; simp
theorem clip_up {L U : EReal} (hLU : L ≤ U) {y : ℝ} (h : U ≤ (y : EReal)) :
    clipFn L U y = U.toReal := by
  unfold clipFn; rw [min_eq_left h, max_eq_right hLU]

/-- cutting the bounds to the support does not change the clipped variable -/
theorem Base.clip_cut (b : Base) {l u : EReal} (h : (censBounds b l u).1 ≤ (censBounds b l u).2) :
    clipFn l u =ᵐ[b.law] clipFn (censBounds b l u).1 (censBounds b l u).2 := by
  filter_upwards [b.in_support] with y ⟨h1, h2⟩
  unfold clipFn
  congr 1
  simp only [censBounds] at h ⊢
  have hlo : b.lo ≤ u := (le_max_left _ _).trans (h.trans (min_le_right _ _))
  have e1 : min (min b.hi u) (y : EReal) = min u (y : EReal) := by
    rw [min_comm b.hi u, min_assoc, min_eq_right h2]
  rw [e1, max_assoc, max_eq_right (a := b.lo)]
  exact le_trans (le_min hlo h1) (le_max_right _ _)

theorem Base.censLaw_cut (b : Base) {l u : EReal}
    (h : (censBounds b l u).1 ≤ (censBounds b l u).2) :
    censLaw b.law l u = censLaw b.law (censBounds b l u).1 (censBounds b l u).2 :=
  Measure.map_congr (b.clip_cut h)

theorem Base.cens_Iic (b : Base) {L U : EReal} (hLU : L ≤ U) (hL : L ≠ ⊤) (hU : U ≠ ⊥) (x : ℝ) :
    (censLaw b.law L U).real (Set.Iic x)
      = if (x : EReal) < L then 0 else if U ≤ (x : EReal) then 1 else b.cdf x := by
  unfold censLaw
  rw [map_measureReal_apply (clip_meas L U) measurableSet_Iic]
  have : clipFn L U ⁻¹' Set.Iic x = {y | U ≤ (x : EReal) ∨ (L ≤ (x : EReal) ∧ y ≤ x)} := by
    ext y; simp [clip_le_iff hLU hL hU]
  rw [this]
  by_cases h1 : (x : EReal) < L
  · have : ¬ U ≤ (x : EReal) := not_le.2 (lt_of_lt_of_le h1 hLU)
    simp [h1, this, not_le.2 h1]
  · by_cases h2 : U ≤ (x : EReal)
    · simp [h1, h2]
    · simp only [h1, h2, if_false, false_or, not_lt.1 h1, true_and, b.cdf_coe]
      rfl

/-- mass at a point of the clipped law -/
theorem Base.cens_point (b : Base) {L U : EReal} (hLU : L < U) (x : ℝ) :
    (censLaw b.law L U).real {x}
      = if (x : EReal) = L then b.cdf L
        else if (x : EReal) = U then b.law.real {y : ℝ | U ≤ (y : EReal)}
        else if (x : EReal) < L ∨ (x : EReal) > U then 0 else b.law.real {x} := by
  have hL : L ≠ ⊤ := ne_top_of_lt hLU
  have hU : U ≠ ⊥ := ne_bot_of_gt hLU
  unfold censLaw
  rw [map_measureReal_apply (clip_meas L U) (measurableSet_singleton x)]
  have key : ∀ y : ℝ, clipFn L U y = x ↔ max L (min U (y : EReal)) = (x : EReal) := by
    intro y; rw [← clip_coe hL hU, EReal.coe_eq_coe_iff]
  have hpre : clipFn L U ⁻¹' {x} = {y : ℝ | max L (min U (y : EReal)) = (x : EReal)} := by
    ext y; simp [key]
  rw [hpre]
  by_cases h1 : (x : EReal) = L
  · rw [if_pos h1, h1]
    unfold Base.cdf
    congr 1; ext y
    simp only [Set.mem_ofPred_eq]
    rw [max_eq_left_iff, min_le_iff]
    constructor
    · rintro (h | h)
      · exact absurd hLU (not_lt.2 h)
      · exact h
    · exact Or.inr
  · rw [if_neg h1]
    by_cases h2 : (x : EReal) = U
    · rw [if_pos h2, h2]
      congr 1; ext y
      simp only [Set.mem_ofPred_eq]
      constructor
      · intro h
        rcases max_choice L (min U (y : EReal)) with h' | h'
        · rw [h'] at h; exact absurd h hLU.ne
        · rw [h'] at h; exact min_eq_left_iff.1 h
      · intro h; rw [min_eq_left h, max_eq_right hLU.le]
    · rw [if_neg h2]
      by_cases h3 : (x : EReal) < L ∨ (x : EReal) > U
      · rw [if_pos h3]
        have : {y : ℝ | max L (min U (y : EReal)) = (x : EReal)} = ∅ := by
          ext y
          simp only [Set.mem_ofPred_eq, Set.mem_empty_iff_false, iff_false]
          intro h
          rcases h3 with h3 | h3
          · exact absurd h3 (not_lt.2 (h ▸ le_max_left _ _))
          · have : max L (min U (y : EReal)) ≤ U := max_le hLU.le (min_le_left _ _)
            rw [h] at this
            exact absurd h3 (not_lt.2 this)
        rw [this]; simp
      · rw [if_neg h3]
        push Not at h3
        congr 1; ext y
        simp only [Set.mem_ofPred_eq, Set.mem_singleton_iff]
        constructor
        · intro h
          rcases max_choice L (min U (y : EReal)) with h' | h'
          · rw [h'] at h; exact absurd h.symm h1
          · rw [h'] at h
            rcases min_choice U (y : EReal) with h'' | h''
            · rw [h''] at h; exact absurd h.symm h2
            · rw [h''] at h; exact_mod_cast h
        · rintro rfl
          rw [min_eq_right h3.2, max_eq_right h3.1]

/-- `1 - F(upper - 1)` is the probability of reaching the upper bound -/
theorem Base.upper_tail (b : Base) (hd : b.discrete = true) {U : EReal} (hU : Whole U) :
    1 - b.cdf (U - 1) = b.law.real {y : ℝ | U ≤ (y : EReal)} := by
  have h := b.adjust_ae U (fun _ => hU)
  have e : adjustLower b.discrete U = U - 1 := by simp [adjustLower, hd]
  rw [e] at h
  rw [← b.cdf_top, ← b.mass_gap le_top]
  apply measureReal_congr
  filter_upwards [h] with y hy
  apply propext
  show _ ∧ _ ↔ U ≤ (y : EReal)
  simp [hy]

theorem Base.upper_tail_cont (b : Base) (hd : b.discrete = false) (U : EReal) :
    1 - b.cdf U = b.law.real {y : ℝ | U ≤ (y : EReal)} := by
  have h := b.adjust_ae U (by simp [hd])
  have e : adjustLower b.discrete U = U := by simp [adjustLower, hd]
  rw [e] at h
  rw [← b.cdf_top, ← b.mass_gap le_top]
  apply measureReal_congr
  filter_upwards [h] with y hy
  apply propext
  show _ ∧ _ ↔ U ≤ (y : EReal)
  simp [hy]

/-- closed form of the censored density -/
theorem censPdf_eq (b : Base) (L U : EReal) (x : ℝ) :
    censPdf b L U x
      = if (x : EReal) = U then 1 - b.cdf (if b.discrete then U - 1 else U)
        else if (x : EReal) = L then b.cdf L
        else if (x : EReal) < L ∨ (x : EReal) > U then 0 else b.pdf x := by
  unfold censPdf censLogpdf Base.logpdf
  dsimp only
  have h1 : ∀ e, 0 ≤ 1 - b.cdf e := fun e => by linarith [b.cdf_le_one e]
  by_cases hu : (x : EReal) = U
  · cases b.discrete <;> simp [hu, expOf_logOf (h1 _)]
  · by_cases hl : (x : EReal) = L
    · cases b.discrete <;> simp only [hu, hl, if_true, if_false, expOf_logOf (b.cdf_nonneg _),
        Bool.false_eq_true] <;> simp [hl ▸ hu, expOf_logOf (b.cdf_nonneg _)]
    · by_cases ho : (x : EReal) < L ∨ (x : EReal) > U
      · cases b.discrete <;> simp [hu, hl, ho, expOf]
      · cases b.discrete <;> simp [hu, hl, ho, expOf_logOf (b.pdf_nonneg _)]

end Verif.Modifier
