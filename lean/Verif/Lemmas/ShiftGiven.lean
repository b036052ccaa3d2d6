import Verif.Spec.ShiftGiven
import Verif.Lemmas.MatchLine

/-!
# Lemmas for C133
-/

namespace Verif.ShiftGiven
open MeasureTheory Set Filter Topology Verif.Spec Verif.LocScale Verif.Lemmas.MaxentHdi Verif.Lemmas.MatchLine

variable {g : ℝ → ℝ} {k : ℝ}

theorem area_up (hg : Humped g k) (a b : ℝ) : area g a b = upTo g b - upTo g a :=
  (intervalIntegral.integral_Iic_sub_Iic hg.int.integrableOn hg.int.integrableOn).symm

theorem up_bot (_ : Humped g k) : Tendsto (upTo g) atBot (𝓝 0) :=
  tendsto_integral_Iic_zero tendsto_id

theorem up_top (hg : Humped g k) : Tendsto (upTo g) atTop (𝓝 1) := by
  have h := intervalIntegral_tendsto_integral_Ioi (0 : ℝ) hg.int.integrableOn tendsto_id
  have e : (∫ x in Iic (0 : ℝ), g x) + ∫ x in Ioi (0 : ℝ), g x = 1 := by
    rw [← hg.one]
    exact intervalIntegral.integral_Iic_add_Ioi hg.int.integrableOn hg.int.integrableOn
  have h2 := h.const_add (upTo g 0)
  rw [show upTo g 0 + ∫ x in Ioi (0 : ℝ), g x = 1 from e] at h2
  refine h2.congr fun x => ?_
  have := area_up hg 0 x
  unfold area at this
  simp only [id]
  linarith

theorem up_cont (hg : Humped g k) : Continuous (upTo g) := by
  have e : upTo g = fun x => upTo g 0 + area g 0 x := by
    funext x
    rw [area_up hg]; ring
  rw [e]
  exact (area_cont hg 0).const_add _

theorem up_mono (hg : Humped g k) : StrictMono (upTo g) := upTo_hump_mono hg

theorem up_pos (hg : Humped g k) (x : ℝ) : 0 < upTo g x := by
  have h1 := up_mono hg (show x - 1 < x by linarith)
  have h2 := (up_mono hg).monotone.le_of_tendsto (up_bot hg) (x - 1)
  linarith

theorem up_lt (hg : Humped g k) (x : ℝ) : upTo g x < 1 := by
  have h1 := up_mono hg (show x < x + 1 by linarith)
  have h2 := (up_mono hg).monotone.ge_of_tendsto (up_top hg) (x + 1)
  linarith

/-- a growing function from zero to `t` -/
theorem grow {f : ℝ → ℝ} {t : ℝ} (hc : Continuous f) (hm : StrictMono f) (h0 : f 0 = 0) (ht : Tendsto f atTop (𝓝 t)) {p : ℝ}
    (hp : 0 < p) : (p < t → ∃ x, 0 < x ∧ f x = p) ∧ (t ≤ p → ∀ x, f x ≠ p) := by
  constructor
  · intro h
    obtain ⟨y, hy, hy0⟩ := ((ht.eventually (lt_mem_nhds h)).and (eventually_gt_atTop 0)).exists
    obtain ⟨x, hx, e⟩ := intermediate_value_Icc hy0.le hc.continuousOn (show p ∈ _ from ⟨by rw [h0]; exact hp.le, hy.le⟩)
    refine ⟨x, lt_of_le_of_ne hx.1 ?_, e⟩
    rintro rfl
    rw [h0] at e; linarith
  · intro h x e
    have h1 := hm (show x < x + 1 by linarith)
    have h2 := hm.monotone.ge_of_tendsto ht (x + 1)
    linarith

/-- a function that is positive, starts at zero and goes to zero -/
theorem bump {f : ℝ → ℝ} (hc : Continuous f) (h0 : f 0 = 0) (hpos : ∀ x, 0 < x → 0 < f x) (ht : Tendsto f atTop (𝓝 0)) :
    ∃ x₀, 0 < x₀ ∧ (∀ x, 0 < x → f x ≤ f x₀) ∧
      ∀ p, 0 < p → p ≤ f x₀ → ∃ x₁, 0 < x₁ ∧ f x₁ = p ∧ (∀ x, 0 < x → f x = p → x₁ ≤ x) ∧
        (p < f x₀ → ∃ x₂, x₁ < x₂ ∧ f x₂ = p) := by
  have h1 := hpos 1 one_pos
  obtain ⟨X, hX⟩ := (ht.eventually (gt_mem_nhds h1)).exists_forall_of_atTop
  obtain ⟨x₀, hx₀, hmax⟩ := isCompact_Icc.exists_isMaxOn (s := Icc 0 (max X 1)) ⟨1, by simp⟩ hc.continuousOn
  have hone : f 1 ≤ f x₀ := hmax (show (1 : ℝ) ∈ Icc 0 (max X 1) by simp)
  have hpos0 : 0 < x₀ := by
    refine lt_of_le_of_ne hx₀.1 ?_
    rintro rfl
    rw [h0] at hone; linarith
  refine ⟨x₀, hpos0, fun x hx => ?_, fun p hp hle => ?_⟩
  · by_cases h : x ≤ max X 1
    · exact hmax ⟨hx.le, h⟩
    · have := hX x ((le_max_left _ _).trans (not_le.1 h).le)
      linarith
  · have hcomp : IsCompact (Icc 0 x₀ ∩ f ⁻¹' {p}) := isCompact_Icc.inter_right (isClosed_singleton.preimage hc)
    obtain ⟨y, hy, ey⟩ := intermediate_value_Icc hx₀.1 hc.continuousOn (show p ∈ _ from ⟨by rw [h0]; exact hp.le, hle⟩)
    obtain ⟨x₁, hx₁, hleast⟩ := hcomp.exists_isLeast ⟨y, hy, ey⟩
    have e₁ : f x₁ = p := hx₁.2
    refine ⟨x₁, lt_of_le_of_ne hx₁.1.1 ?_, e₁, fun x hx e => ?_, fun hlt => ?_⟩
    · rintro rfl
      rw [h0] at e₁; linarith
    · by_cases h : x ≤ x₀
      · exact hleast ⟨⟨hx.le, h⟩, e⟩
      · exact hx₁.1.2.trans (not_le.1 h).le
    · obtain ⟨z, hz1, hz2⟩ := ((ht.eventually (gt_mem_nhds hp)).and (eventually_gt_atTop x₀)).exists
      obtain ⟨x₂, hx₂, e₂⟩ := intermediate_value_Icc' hz2.le hc.continuousOn (show p ∈ _ from ⟨hz1.le, hle⟩)
      refine ⟨x₂, lt_of_le_of_lt hx₁.1.2 (lt_of_le_of_ne hx₂.1 ?_), e₂⟩
      rintro rfl
      linarith

/-- both ends on different sides of the location -/
theorem span_mono (hg : Humped g k) {a b : ℝ} (ha : 0 ≤ a) (hb : 0 ≤ b) (hab : 0 < a + b) :
    StrictMono fun x => upTo g (b * x) - upTo g (-(a * x)) := by
  intro x y hxy
  simp only
  rcases ha.lt_or_eq with h | h
  · have h1 := up_mono hg (neg_lt_neg (mul_lt_mul_of_pos_left hxy h))
    have h2 := (up_mono hg).monotone (mul_le_mul_of_nonneg_left hxy.le hb)
    linarith
  · have hb' : 0 < b := by linarith
    have h1 := up_mono hg (mul_lt_mul_of_pos_left hxy hb')
    rw [← h, zero_mul, zero_mul]
    linarith

theorem span_cont (hg : Humped g k) (a b : ℝ) : Continuous fun x => upTo g (b * x) - upTo g (a * x) :=
  ((up_cont hg).comp (by fun_prop)).sub ((up_cont hg).comp (by fun_prop))

theorem up_far (hg : Humped g k) {b : ℝ} (hb : 0 < b) : Tendsto (fun x => upTo g (b * x)) atTop (𝓝 1) :=
  (up_top hg).comp (tendsto_id.const_mul_atTop hb)

theorem up_near (hg : Humped g k) {b : ℝ} (hb : b < 0) : Tendsto (fun x => upTo g (b * x)) atTop (𝓝 0) :=
  (up_bot hg).comp (tendsto_id.const_mul_atTop_of_neg hb)

/-- an interval of fixed length, moved -/
theorem slide (hg : Humped g k) {L : ℝ} (hL : 0 < L) : ∃ w₀, g w₀ = g (w₀ + L) ∧
    StrictMonoOn (fun w => area g w (w + L)) (Iic w₀) ∧ StrictAntiOn (fun w => area g w (w + L)) (Ici w₀) := by
  have hc : Continuous fun x => g (x + L) - g x := (hg.cont.comp (by fun_prop)).sub hg.cont
  obtain ⟨w₀, hw, e⟩ := intermediate_value_Icc' (show k - L ≤ k by linarith) hc.continuousOn (show (0 : ℝ) ∈ _ from by
    constructor
    · have := hg.falls k (k + L) le_rfl (by linarith)
      linarith
    · have := hg.rises (k - L) k (by linarith) le_rfl
      simp only [sub_add_cancel]; linarith)
  simp only at e
  have e' : g w₀ = g (w₀ + L) := by linarith
  have hk1 : w₀ < k := by
    by_contra h
    have := hg.falls w₀ (w₀ + L) (not_lt.1 h) (by linarith)
    linarith
  have hk2 : k < w₀ + L := by
    by_contra h
    have := hg.rises w₀ (w₀ + L) (by linarith) (not_lt.1 h)
    linarith
  have up : ∀ x, x < w₀ → 0 < g (x + L) - g x := by
    intro x hx
    rcases le_total (x + L) k with h | h
    · have := hg.rises x (x + L) (by linarith) h
      linarith
    · have h1 := hg.falls (x + L) (w₀ + L) h (by linarith)
      have h2 := hg.rises x w₀ hx hk1.le
      linarith
  have down : ∀ x, w₀ < x → g (x + L) - g x < 0 := by
    intro x hx
    rcases le_total k x with h | h
    · have := hg.falls x (x + L) h (by linarith)
      linarith
    · have h1 := hg.rises w₀ x hx h
      have h2 := hg.falls (w₀ + L) (x + L) hk2.le (by linarith)
      linarith
  have step : ∀ w w', area g w' (w' + L) = area g w (w + L) + area (fun x => g (x + L) - g x) w w' := by
    intro w w'
    have := area_shift hg w (w + L) (w' - w)
    rw [show w + (w' - w) = w' by ring, show w + L + (w' - w) = w' + L by ring, show w + L - w = L by ring] at this
    exact this
  refine ⟨w₀, e', fun w _ w' hw' h => ?_, fun w hw w' _ h => ?_⟩
  · simp only
    rw [step w w']
    have := pos_area hc h fun x _ hx => up x (lt_of_lt_of_le hx hw')
    linarith
  · simp only
    rw [step w w']
    have := neg_area hc h fun x hx _ => down x (lt_of_le_of_lt hw hx)
    linarith

theorem slide_cont (hg : Humped g k) (L : ℝ) : Continuous fun w => area g w (w + L) := by
  have e : (fun w => area g w (w + L)) = fun w => upTo g (w + L) - upTo g w := by funext w; exact area_up hg _ _
  rw [e]
  exact ((up_cont hg).comp (by fun_prop)).sub (up_cont hg)

theorem slide_top (hg : Humped g k) (L : ℝ) : Tendsto (fun w => area g w (w + L)) atTop (𝓝 0) := by
  have e : (fun w => area g w (w + L)) = fun w => upTo g (w + L) - upTo g w := by funext w; exact area_up hg _ _
  rw [e, ← sub_self 1]
  exact ((up_top hg).comp (tendsto_atTop_add_const_right _ _ tendsto_id)).sub (up_top hg)

theorem slide_bot (hg : Humped g k) (L : ℝ) : Tendsto (fun w => area g w (w + L)) atBot (𝓝 0) := by
  have e : (fun w => area g w (w + L)) = fun w => upTo g (w + L) - upTo g w := by funext w; exact area_up hg _ _
  rw [e, ← sub_self 0]
  exact ((up_bot hg).comp (tendsto_atBot_add_const_right _ _ tendsto_id)).sub (up_bot hg)

/-- two positions for every mass below the largest -/
theorem slide_two (hg : Humped g k) {L : ℝ} (hL : 0 < L) : ∃ w₀, g w₀ = g (w₀ + L) ∧
    (∀ w, w ≠ w₀ → area g w (w + L) < area g w₀ (w₀ + L)) ∧
    ∀ p, 0 < p → p < area g w₀ (w₀ + L) → ∃ w₁ w₂, w₁ < w₀ ∧ w₀ < w₂ ∧ ∀ w, area g w (w + L) = p ↔ w = w₁ ∨ w = w₂ := by
  obtain ⟨w₀, e, m, a⟩ := slide hg hL
  refine ⟨w₀, e, fun w hne => ?_, fun p hp hlt => ?_⟩
  · rcases lt_or_gt_of_ne hne with h | h
    · exact m h.le (show w₀ ≤ w₀ from le_rfl) h
    · exact a (show w₀ ≤ w₀ from le_rfl) h.le h
  · obtain ⟨x, hx, hx0⟩ := (((slide_bot hg L).eventually (gt_mem_nhds hp)).and (eventually_lt_atBot w₀)).exists
    obtain ⟨y, hy, hy0⟩ := (((slide_top hg L).eventually (gt_mem_nhds hp)).and (eventually_gt_atTop w₀)).exists
    obtain ⟨w₁, h₁, e₁⟩ := intermediate_value_Icc hx0.le (slide_cont hg L).continuousOn (show p ∈ _ from ⟨hx.le, hlt.le⟩)
    obtain ⟨w₂, h₂, e₂⟩ := intermediate_value_Icc' hy0.le (slide_cont hg L).continuousOn (show p ∈ _ from ⟨hy.le, hlt.le⟩)
    have n₁ : w₁ ≠ w₀ := by rintro rfl; simp only at e₁; linarith
    have n₂ : w₀ ≠ w₂ := by rintro rfl; simp only at e₂; linarith
    refine ⟨w₁, w₂, lt_of_le_of_ne h₁.2 n₁, lt_of_le_of_ne h₂.1 n₂, fun w => ⟨fun ew => ?_, ?_⟩⟩
    · rcases le_total w w₀ with h | h
      · exact .inl (m.injOn h h₁.2 (ew.trans e₁.symm))
      · exact .inr (a.injOn h h₂.1 (ew.trans e₂.symm))
    · rintro (rfl | rfl)
      · exact e₁
      · exact e₂

end Verif.ShiftGiven
