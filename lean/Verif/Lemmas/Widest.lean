import Verif.Spec.Widest
import Verif.Lemmas.QuartileShape
import Mathlib.Analysis.SpecialFunctions.Log.NegMulLog

/-!
# Masses and entropies of uniform and triangular densities (C125)
-/

namespace Verif.Lemmas.Widest
open MeasureTheory Set Verif.Spec Verif.Lemmas.QuartileShape

/-! ## Uniform -/

theorem uniform_ind (a b : ℝ) : uniformPdf a b = (Icc a b).indicator fun _ => 1 / (b - a) := by
  funext y; simp only [uniformPdf, indicator, mem_Icc]

theorem uniform_mass {a b : ℝ} (h : a < b) (l u : ℝ) :
    massOf (uniformPdf a b) l u = max (min u b - max l a) 0 / (b - a) := by
  have hd : 0 < b - a := sub_pos.2 h
  have hi : Integrable (uniformPdf a b) := by
    rw [uniform_ind, integrable_indicator_iff measurableSet_Icc]
    exact integrableOn_const (by simp)
  unfold massOf
  rw [real_pdf measurableSet_Icc (fun y => by unfold uniformPdf; split_ifs <;> positivity) hi.integrableOn, uniform_ind,
    setIntegral_indicator measurableSet_Icc, Icc_inter_Icc, setIntegral_const, Real.volume_real_Icc, smul_eq_mul,
    mul_one_div]

theorem uniform_entropy {a b : ℝ} (h : a < b) : entropyOf (uniformPdf a b) = Real.log (b - a) := by
  have hd : 0 < b - a := sub_pos.2 h
  unfold entropyOf
  have : (fun x => uniformPdf a b x * Real.log (uniformPdf a b x)) =
      (Icc a b).indicator fun _ => 1 / (b - a) * Real.log (1 / (b - a)) := by
    funext y
    rw [uniform_ind]
    by_cases hy : y ∈ Icc a b
    · simp [indicator_of_mem hy]
    · simp [indicator_of_notMem hy]
  rw [this, integral_indicator measurableSet_Icc, setIntegral_const, Real.volume_real_Icc_of_le h.le, smul_eq_mul, one_div,
    Real.log_inv]
  field_simp

/-- a uniform law with the mass -/
theorem uniform_widest {a b l u p : ℝ} (h : a < b) (h0 : 0 < p) (hm : massOf (uniformPdf a b) l u = p) :
    b - a ≤ (u - l) / p ∧ ((b - a) = (u - l) / p → a ≤ l ∧ u ≤ b) := by
  have hd : 0 < b - a := sub_pos.2 h
  rw [uniform_mass h, div_eq_iff hd.ne'] at hm
  have hpos : 0 < max (min u b - max l a) 0 := by rw [hm]; positivity
  have e : max (min u b - max l a) 0 = min u b - max l a := by
    rcases le_or_gt (min u b - max l a) 0 with hc | hc
    · rw [max_eq_right hc] at hpos; exact absurd hpos (lt_irrefl _)
    · exact max_eq_left hc.le
  rw [e] at hm
  have h1 := min_le_left u b
  have h2 := le_max_left l a
  refine ⟨by rw [le_div_iff₀ h0]; linarith, fun he => ?_⟩
  rw [eq_div_iff h0.ne'] at he
  constructor
  · have : max l a = l := by linarith
    exact max_eq_left_iff.1 this
  · have : min u b = u := by linarith
    exact min_eq_left_iff.1 this

theorem uniform_best {a b l u p : ℝ} (h : a < b) (hlu : l < u) (h1 : a ≤ l) (h2 : u ≤ b) (h3 : u - l = p * (b - a)) :
    massOf (uniformPdf a b) l u = p := by
  rw [uniform_mass h, min_eq_left h2, max_eq_left h1, max_eq_left (by linarith), h3, mul_div_assoc,
    div_self (sub_pos.2 h).ne', mul_one]

/-! ## Triangular -/

section
variable {a c b : ℝ}

theorem tri_nonneg (_h1 : a ≤ c) (h2 : c ≤ b) (h : a < b) (x : ℝ) : 0 ≤ triangularPdf a c b x := by
  unfold triangularPdf
  have := sub_pos.2 h
  split_ifs with q1 q2 q3 q4
  · exact le_rfl
  · have : 0 ≤ x - a := by linarith
    have : 0 < c - a := by linarith
    positivity
  · positivity
  · have : 0 ≤ b - x := by linarith
    have : 0 ≤ b - c := by linarith
    positivity
  · exact le_rfl

theorem tri_left (x : ℝ) (h : a ≤ x) (h' : x < c) : triangularPdf a c b x = 2 * (x - a) / ((b - a) * (c - a)) := by
  unfold triangularPdf
  rw [if_neg (by linarith), if_pos h']

theorem tri_right (x : ℝ) (h1 : a ≤ c) (h : c < x) (h' : x ≤ b) :
    triangularPdf a c b x = 2 * (b - x) / ((b - a) * (b - c)) := by
  unfold triangularPdf
  rw [if_neg (by linarith), if_neg (by linarith), if_neg (by linarith), if_pos h']

theorem tri_below (x : ℝ) (h : x < a) : triangularPdf a c b x = 0 := by
  unfold triangularPdf
  rw [if_pos h]

theorem tri_above (x : ℝ) (h1 : a ≤ c) (h2 : c ≤ b) (h : b < x) : triangularPdf a c b x = 0 := by
  unfold triangularPdf
  rw [if_neg (by linarith), if_neg (by linarith), if_neg (by linarith), if_neg (by linarith)]

theorem mass_seg {f G : ℝ → ℝ} (h0 : ∀ x, 0 ≤ f x) {x y : ℝ} (hxy : x ≤ y) (hc : ContinuousOn G (Icc x y))
    (hd : ∀ t ∈ Ioo x y, HasDerivAt G (f t) t) : IntegrableOn f (Icc x y) ∧ massOf f x y = G y - G x := by
  have ii : IntervalIntegrable f volume x y :=
    intervalIntegral.intervalIntegrable_deriv_of_nonneg (by rwa [uIcc_of_le hxy])
      (by simpa [min_eq_left hxy, max_eq_right hxy] using hd) fun y _ => h0 y
  have i1 : IntegrableOn f (Icc x y) := by
    rw [integrableOn_Icc_iff_integrableOn_Ioc]
    exact (intervalIntegrable_iff_integrableOn_Ioc_of_le hxy).1 ii
  refine ⟨i1, ?_⟩
  unfold massOf
  rw [real_pdf measurableSet_Icc h0 i1, integral_Icc_eq_integral_Ioc, ← intervalIntegral.integral_of_le hxy,
    intervalIntegral.integral_eq_sub_of_hasDerivAt_of_le hxy hc hd ii]

theorem seg_left (h1 : a < c) (h2 : c ≤ b) {x y : ℝ} (hx : a ≤ x) (hxy : x ≤ y) (hy : y ≤ c) :
    IntegrableOn (triangularPdf a c b) (Icc x y) ∧
      massOf (triangularPdf a c b) x y = (y - a) ^ 2 / ((b - a) * (c - a)) - (x - a) ^ 2 / ((b - a) * (c - a)) := by
  refine mass_seg (G := fun t => (t - a) ^ 2 / ((b - a) * (c - a))) (tri_nonneg h1.le h2 (by linarith)) hxy (by fun_prop)
    fun t ht => ?_
  rw [tri_left t (by linarith [ht.1]) (by linarith [ht.2])]
  have := (((hasDerivAt_id t).sub_const a).pow 2).div_const ((b - a) * (c - a))
  refine HasDerivAt.congr_deriv this ?_
  simp

theorem seg_right (h1 : a ≤ c) (h2 : c < b) {x y : ℝ} (hx : c ≤ x) (hxy : x ≤ y) (hy : y ≤ b) :
    IntegrableOn (triangularPdf a c b) (Icc x y) ∧
      massOf (triangularPdf a c b) x y = (b - x) ^ 2 / ((b - a) * (b - c)) - (b - y) ^ 2 / ((b - a) * (b - c)) := by
  have := mass_seg (f := triangularPdf a c b) (G := fun t => -((b - t) ^ 2 / ((b - a) * (b - c))))
    (tri_nonneg h1 h2.le (by linarith)) hxy (by fun_prop) fun t ht => by
      rw [tri_right t h1 (by linarith [ht.1]) (by linarith [ht.2])]
      have := ((((hasDerivAt_id t).const_sub b).pow 2).div_const ((b - a) * (b - c))).neg
      refine HasDerivAt.congr_deriv this ?_
      simp; ring
  refine ⟨this.1, this.2.trans (by ring)⟩

theorem tri_int (h1 : a ≤ c) (h2 : c ≤ b) : Integrable (triangularPdf a c b) := by
  have i1 : IntegrableOn (triangularPdf a c b) (Icc a c) := by
    rcases h1.lt_or_eq with h | h
    · exact (seg_left h h2 le_rfl h1 le_rfl).1
    · subst h; simp
  have i2 : IntegrableOn (triangularPdf a c b) (Icc c b) := by
    rcases h2.lt_or_eq with h | h
    · exact (seg_right h1 h le_rfl h2 le_rfl).1
    · subst h; simp
  have i3 := i1.union i2
  rw [Icc_union_Icc_eq_Icc h1 h2] at i3
  refine (integrableOn_iff_integrable_of_support_subset fun x hx => ?_).1 i3
  by_contra hc
  rw [mem_Icc, not_and_or, not_le, not_le] at hc
  rcases hc with hc | hc
  · exact hx (tri_below x hc)
  · exact hx (tri_above x h1 h2 hc)

theorem mass_int {f : ℝ → ℝ} (h0 : ∀ x, 0 ≤ f x) (hi : Integrable f) {l u : ℝ} (h : l ≤ u) :
    massOf f l u = ∫ x in l..u, f x := by
  unfold massOf
  rw [real_pdf measurableSet_Icc h0 hi.integrableOn, integral_Icc_eq_integral_Ioc, ← intervalIntegral.integral_of_le h]

theorem mass_split {f : ℝ → ℝ} (h0 : ∀ x, 0 ≤ f x) (hi : Integrable f) {l c u : ℝ} (h : l ≤ c) (h' : c ≤ u) :
    massOf f l u = massOf f l c + massOf f c u := by
  rw [mass_int h0 hi (h.trans h'), mass_int h0 hi h, mass_int h0 hi h',
    intervalIntegral.integral_add_adjacent_intervals hi.intervalIntegrable hi.intervalIntegrable]

theorem mass_zero {f : ℝ → ℝ} {l u : ℝ} (hz : ∀ x, l < x → x < u → f x = 0) : massOf f l u = 0 := by
  unfold massOf ofPdf Measure.real
  rw [withDensity_apply _ measurableSet_Icc, ← restrict_Ioo_eq_restrict_Icc,
    setLIntegral_congr_fun (g := fun _ => 0) measurableSet_Ioo (fun y hy => by simp [hz y hy.1 hy.2])]
  simp

/-- the part outside the support does not count -/
theorem tri_clip (h1 : a ≤ c) (h2 : c ≤ b) (h : a < b) (l u : ℝ) (hm : 0 < massOf (triangularPdf a c b) l u) :
    max l a ≤ min u b ∧ massOf (triangularPdf a c b) l u = massOf (triangularPdf a c b) (max l a) (min u b) := by
  have h0 := tri_nonneg h1 h2 h
  have hi := tri_int h1 h2
  have hlu : l ≤ u := by
    by_contra hc
    rw [mass_zero fun x hx hx' => by linarith] at hm
    exact lt_irrefl _ hm
  have hau : a ≤ u := by
    by_contra hc
    rw [mass_zero fun x hx hx' => tri_below x (by linarith)] at hm
    exact lt_irrefl _ hm
  have hlb : l ≤ b := by
    by_contra hc
    rw [mass_zero fun x hx hx' => tri_above x h1 h2 (by linarith)] at hm
    exact lt_irrefl _ hm
  have hle : max l a ≤ min u b := max_le (le_min hlu hlb) (le_min hau h.le)
  refine ⟨hle, ?_⟩
  rw [mass_split h0 hi (le_max_left l a) (hle.trans (min_le_left u b)), mass_split h0 hi hle (min_le_left u b)]
  rw [mass_zero (l := l) (u := max l a) fun x hx hx' => ?_, mass_zero (l := min u b) (u := u) fun x hx hx' => ?_]
  · ring
  · rcases min_lt_iff.1 hx with hh | hh
    · linarith
    · exact tri_above x h1 h2 hh
  · rcases lt_max_iff.1 hx' with hh | hh
    · linarith
    · exact tri_below x hh

/-- the mass of an interval around the mode -/
theorem tri_mass (h1 : a ≤ c) (h2 : c ≤ b) (h : a < b) {l u : ℝ} (ha : a ≤ l) (hl : l ≤ c) (hu : c ≤ u) (hb : u ≤ b) :
    massOf (triangularPdf a c b) l u =
      1 - (l - a) ^ 2 / ((b - a) * (c - a)) - (b - u) ^ 2 / ((b - a) * (b - c)) := by
  have hW : (b - a) ≠ 0 := (sub_pos.2 h).ne'
  rw [mass_split (tri_nonneg h1 h2 h) (tri_int h1 h2) hl hu]
  have e1 : massOf (triangularPdf a c b) l c = (c - a) / (b - a) - (l - a) ^ 2 / ((b - a) * (c - a)) := by
    rcases h1.lt_or_eq with h' | h'
    · rw [(seg_left h' h2 ha hl le_rfl).2]
      have : c - a ≠ 0 := (sub_pos.2 h').ne'
      field_simp
    · subst h'
      have : l = a := le_antisymm hl ha
      subst this
      rw [mass_zero fun x _ _ => by linarith]
      simp
  have e2 : massOf (triangularPdf a c b) c u = (b - c) / (b - a) - (b - u) ^ 2 / ((b - a) * (b - c)) := by
    rcases h2.lt_or_eq with h' | h'
    · rw [(seg_right h1 h' le_rfl hu hb).2]
      have : b - c ≠ 0 := (sub_pos.2 h').ne'
      field_simp
    · subst h'
      have : u = c := le_antisymm hb hu
      subst this
      rw [mass_zero fun x _ _ => by linarith]
      simp
  rw [e1, e2]
  have : (c - a) / (b - a) + (b - c) / (b - a) = 1 := by field_simp; ring
  linarith

/-- Cauchy-Schwarz for two fractions, and when it is an equality -/
theorem titu {X Y α β : ℝ} (hα : 0 ≤ α) (hβ : 0 ≤ β) (hx : α = 0 → X = 0) (hy : β = 0 → Y = 0) (hs : 0 < α + β) :
    (X + Y) ^ 2 ≤ (α + β) * (X ^ 2 / α + Y ^ 2 / β) ∧
      ((X + Y) ^ 2 = (α + β) * (X ^ 2 / α + Y ^ 2 / β) → X * β = Y * α) := by
  rcases hα.lt_or_eq with ha | ha
  · rcases hβ.lt_or_eq with hb | hb
    · have e : (α + β) * (X ^ 2 / α + Y ^ 2 / β) = (X + Y) ^ 2 + (X * β - Y * α) ^ 2 / (α * β) := by
        field_simp; ring
      rw [e]
      refine ⟨le_add_of_nonneg_right (by positivity), fun h => ?_⟩
      have : (X * β - Y * α) ^ 2 / (α * β) = 0 := by linarith
      rw [div_eq_zero_iff] at this
      rcases this with h' | h'
      · exact sub_eq_zero.1 (pow_eq_zero_iff two_ne_zero |>.1 h')
      · exact absurd h' (by positivity)
    · have := hy hb.symm
      subst this
      rw [← hb]
      constructor
      · simp; rw [mul_div_assoc', mul_comm, mul_div_assoc, div_self ha.ne', mul_one]
      · intro _; ring
  · have := hx ha.symm
    subst this
    rw [← ha]
    have hb : β ≠ 0 := by rw [← ha] at hs; linarith
    constructor
    · simp; rw [mul_div_assoc', mul_comm, mul_div_assoc, div_self hb, mul_one]
    · intro _; ring

/-- a triangular law with the mass -/
theorem tri_widest (h1 : a ≤ c) (h2 : c ≤ b) (h : a < b) {l u p r : ℝ} (h0 : 0 < p)
    (hr0 : 0 ≤ r) (hr1 : r < 1) (hr : r ^ 2 = 1 - p) (hm : massOf (triangularPdf a c b) l u = p) :
    (b - a) * (1 - r) ≤ u - l ∧ ((b - a) * (1 - r) = u - l → l = a + r * (c - a) ∧ u = b - r * (b - c)) := by
  have hW : 0 < b - a := sub_pos.2 h
  obtain ⟨hle, hcl⟩ := tri_clip h1 h2 h l u (by rw [hm]; exact h0)
  rw [hcl] at hm
  have g1 := le_max_left l a
  have g2 := min_le_left u b
  have g3 := le_max_right l a
  have g4 := min_le_right u b
  have key : (b - a) * (1 - r) ≤ min u b - max l a ∧
      ((b - a) * (1 - r) = min u b - max l a → max l a = a + r * (c - a) ∧ min u b = b - r * (b - c)) := by
    generalize max l a = L at *
    generalize min u b = U at *
    have strict : 0 < U - L → p * (b - a) ^ 2 < (U - L) * (2 * (b - a) - (U - L)) → (b - a) * (1 - r) < U - L := by
      intro hpos hlt
      by_contra hc
      push Not at hc
      have e1 : ((b - a) * r) ^ 2 ≤ (b - a - (U - L)) ^ 2 :=
        pow_le_pow_left₀ (by positivity) (by linarith) 2
      have e2 : ((b - a) * r) ^ 2 = (b - a) ^ 2 - p * (b - a) ^ 2 := by rw [mul_pow, hr]; ring
      nlinarith
    rcases lt_or_ge c L with hc | hc
    · -- right of the mode
      have hcb : c < b := by linarith
      rw [(seg_right h1 hcb hc.le hle g4).2, div_sub_div_same, div_eq_iff (by have := sub_pos.2 hcb; positivity)] at hm
      have hUL : 0 < U - L := by
        rcases hle.lt_or_eq with h' | h'
        · linarith
        · exfalso
          rw [h'] at hm
          have : 0 < p * ((b - a) * (b - c)) := by have := sub_pos.2 hcb; positivity
          linarith
      have hs : p * (b - a) ^ 2 < (U - L) * (2 * (b - a) - (U - L)) := by
        have hβ := sub_pos.2 hcb
        have q1 : p * ((b - a) * (b - c)) < (U - L) * (2 * (b - c) - (U - L)) := by
          rw [← hm]
          nlinarith
        have q2 : p * (b - a) * (b - a) * (b - c) < (U - L) * (2 * (b - a) - (U - L)) * (b - c) := by
          have q3 : p * (b - a) * (b - a) * (b - c) = (b - a) * (p * ((b - a) * (b - c))) := by ring
          rw [q3]
          refine (mul_lt_mul_of_pos_left q1 hW).trans_le ?_
          have q4 : 0 ≤ (U - L) * (U - L) * (c - a) := by
            have := sub_nonneg.2 h1
            positivity
          nlinarith
        have q5 := lt_of_mul_lt_mul_right q2 hβ.le
        nlinarith
      have := strict hUL hs
      exact ⟨this.le, fun e => absurd e this.ne⟩
    rcases lt_or_ge U c with hc' | hc'
    · -- left of the mode
      have hac : a < c := by linarith
      rw [(seg_left hac h2 g3 hle hc'.le).2, div_sub_div_same, div_eq_iff (by have := sub_pos.2 hac; positivity)] at hm
      have hUL : 0 < U - L := by
        rcases hle.lt_or_eq with h' | h'
        · linarith
        · exfalso
          rw [h'] at hm
          have : 0 < p * ((b - a) * (c - a)) := by have := sub_pos.2 hac; positivity
          linarith
      have hs : p * (b - a) ^ 2 < (U - L) * (2 * (b - a) - (U - L)) := by
        have hβ := sub_pos.2 hac
        have q1 : p * ((b - a) * (c - a)) < (U - L) * (2 * (c - a) - (U - L)) := by
          rw [← hm]
          nlinarith
        have q2 : p * (b - a) * (b - a) * (c - a) < (U - L) * (2 * (b - a) - (U - L)) * (c - a) := by
          have q3 : p * (b - a) * (b - a) * (c - a) = (b - a) * (p * ((b - a) * (c - a))) := by ring
          rw [q3]
          refine (mul_lt_mul_of_pos_left q1 hW).trans_le ?_
          have q4 : 0 ≤ (U - L) * (U - L) * (b - c) := by
            have := sub_nonneg.2 h2
            positivity
          nlinarith
        have q5 := lt_of_mul_lt_mul_right q2 hβ.le
        nlinarith
      have := strict hUL hs
      exact ⟨this.le, fun e => absurd e this.ne⟩
    · rw [tri_mass h1 h2 h g3 hc hc' g4] at hm
      obtain ⟨t1, t2⟩ := titu (X := L - a) (Y := b - U) (sub_nonneg.2 h1) (sub_nonneg.2 h2)
        (fun e => by linarith) (fun e => by linarith) (by linarith)
      have e : (c - a + (b - c)) * ((L - a) ^ 2 / (c - a) + (b - U) ^ 2 / (b - c)) = ((b - a) * r) ^ 2 := by
        have q : (L - a) ^ 2 / (c - a) + (b - U) ^ 2 / (b - c) =
            (b - a) * ((L - a) ^ 2 / ((b - a) * (c - a)) + (b - U) ^ 2 / ((b - a) * (b - c))) := by
          rw [mul_add, mul_div_assoc', mul_div_assoc', mul_div_mul_left _ _ hW.ne', mul_div_mul_left _ _ hW.ne']
        rw [q, mul_pow, hr, ← hm]; ring
      rw [e] at t1 t2
      have t3 : L - a + (b - U) ≤ (b - a) * r :=
        (pow_le_pow_iff_left₀ (by linarith) (by positivity) two_ne_zero).1 t1
      refine ⟨by linarith, fun he => ?_⟩
      have t4 : L - a + (b - U) = (b - a) * r := by linarith
      have t5 := t2 (by rw [t4])
      have t6 : (L - a) * (b - a) = r * (c - a) * (b - a) := by
        have : (L - a) * (b - a) = (L - a) * (b - c) + (L - a) * (c - a) := by ring
        rw [this, t5]
        have : (b - U) * (c - a) + (L - a) * (c - a) = (L - a + (b - U)) * (c - a) := by ring
        rw [this, t4]; ring
      have t7 := mul_right_cancel₀ hW.ne' t6
      exact ⟨by linarith, by nlinarith⟩
  refine ⟨by linarith [key.1], fun he => ?_⟩
  have e1 : max l a = l := by linarith [key.1]
  have e2 : min u b = u := by linarith [key.1]
  rw [e1, e2] at key
  exact key.2 he

theorem tri_best (h1 : a ≤ c) (h2 : c ≤ b) (h : a < b) {l u p r : ℝ} (hr0 : 0 ≤ r) (hr1 : r < 1) (hr : r ^ 2 = 1 - p)
    (hl : l = a + r * (c - a)) (hu : u = b - r * (b - c)) : massOf (triangularPdf a c b) l u = p := by
  have hW : (b - a) ≠ 0 := (sub_pos.2 h).ne'
  have a1 := sub_nonneg.2 h1
  have a2 := sub_nonneg.2 h2
  subst hl hu
  rw [tri_mass h1 h2 h (by nlinarith) (by nlinarith) (by nlinarith) (by nlinarith)]
  have e1 : (a + r * (c - a) - a) ^ 2 / ((b - a) * (c - a)) = r ^ 2 * (c - a) / (b - a) := by
    rcases a1.lt_or_eq with h' | h'
    · field_simp; ring
    · rw [← h']; simp
  have e2 : (b - (b - r * (b - c))) ^ 2 / ((b - a) * (b - c)) = r ^ 2 * (b - c) / (b - a) := by
    rcases a2.lt_or_eq with h' | h'
    · field_simp; ring
    · rw [← h']; simp
  rw [e1, e2, sub_sub, ← add_div, ← mul_add, show c - a + (b - c) = b - a by ring, mul_div_assoc, div_self hW, hr]
  ring

/-- one side of the triangle -/
theorem slope_entropy {k t : ℝ} (hk : 0 < k) (ht : 0 ≤ t) :
    ∫ x in (0 : ℝ)..t, k * x * Real.log (k * x) = (k * t) ^ 2 / (2 * k) * Real.log (k * t) - (k * t) ^ 2 / (4 * k) := by
  have hc : Continuous fun x : ℝ => k * x * Real.log (k * x) := Real.continuous_mul_log.comp (continuous_const.mul continuous_id)
  rw [intervalIntegral.integral_eq_sub_of_hasDerivAt_of_le ht
    (f := fun x => k * x / (2 * k) * (k * x * Real.log (k * x)) - (k * x) ^ 2 / (4 * k)) ?_ ?_ (hc.intervalIntegrable _ _)]
  · simp; ring
  · exact ((by fun_prop : Continuous fun x : ℝ => k * x / (2 * k)).mul hc).continuousOn.sub (by fun_prop)
  · intro x hx
    have hx0 : 0 < k * x := mul_pos hk hx.1
    have d1 : HasDerivAt (fun x => k * x) k x := by simpa using (hasDerivAt_id x).const_mul k
    have d2 := d1.log hx0.ne'
    have d3 := ((d1.div_const (2 * k)).mul (d1.mul d2)).sub ((d1.pow 2).div_const (4 * k))
    refine HasDerivAt.congr_deriv d3 ?_
    have hx' := hx.1.ne'
    simp
    field_simp
    ring

theorem tri_entropy (h1 : a ≤ c) (h2 : c ≤ b) (h : a < b) :
    entropyOf (triangularPdf a c b) = 1 / 2 + Real.log ((b - a) / 2) := by
  have hW : 0 < b - a := sub_pos.2 h
  set φ : ℝ → ℝ := fun x => triangularPdf a c b x * Real.log (triangularPdf a c b x) with hφ
  have e0 : ∫ x, φ x = ∫ x in a..b, φ x := by
    rw [intervalIntegral.integral_of_le h.le, ← integral_Icc_eq_integral_Ioc]
    refine (setIntegral_eq_integral_of_forall_compl_eq_zero fun x hx => ?_).symm
    rw [mem_Icc, not_and_or, not_le, not_le] at hx
    rcases hx with hx | hx
    · simp [hφ, tri_below x hx]
    · simp [hφ, tri_above x h1 h2 hx]
  have side : ∀ k : ℝ, Continuous fun x : ℝ => k * x * Real.log (k * x) := fun k =>
    Real.continuous_mul_log.comp (continuous_const.mul continuous_id)
  have L : IntervalIntegrable φ volume a c ∧ ∫ x in a..c, φ x = (c - a) / (b - a) * (Real.log (2 / (b - a)) - 1 / 2) := by
    rcases h1.lt_or_eq with h' | h'
    · have hα := sub_pos.2 h'
      have hk : 0 < 2 / ((b - a) * (c - a)) := by positivity
      have eq : ∀ x ∈ Ioo a c, φ x = (fun y => 2 / ((b - a) * (c - a)) * y * Real.log (2 / ((b - a) * (c - a)) * y)) (x - a) := by
        intro x hx
        simp only [hφ]
        rw [tri_left x hx.1.le hx.2]
        congr 2 <;> ring
      have ci : Continuous fun x : ℝ => (fun y => 2 / ((b - a) * (c - a)) * y * Real.log (2 / ((b - a) * (c - a)) * y)) (x - a) :=
        (side _).comp (continuous_id.sub continuous_const)
      constructor
      · rw [intervalIntegrable_iff_integrableOn_Ioo_of_le h1]
        exact ((intervalIntegrable_iff_integrableOn_Ioo_of_le h1).1 (ci.intervalIntegrable a c)).congr_fun
          (fun x hx => (eq x hx).symm) measurableSet_Ioo
      · rw [intervalIntegral.integral_of_le h1, integral_Ioc_eq_integral_Ioo, setIntegral_congr_fun measurableSet_Ioo eq,
          ← integral_Ioc_eq_integral_Ioo, ← intervalIntegral.integral_of_le h1,
          intervalIntegral.integral_comp_sub_right (fun y => 2 / ((b - a) * (c - a)) * y * Real.log (2 / ((b - a) * (c - a)) * y)) a,
          sub_self, slope_entropy hk hα.le]
        have : 2 / ((b - a) * (c - a)) * (c - a) = 2 / (b - a) := by field_simp
        rw [this]
        field_simp
        ring
    · subst h'; simp
  have R : IntervalIntegrable φ volume c b ∧ ∫ x in c..b, φ x = (b - c) / (b - a) * (Real.log (2 / (b - a)) - 1 / 2) := by
    rcases h2.lt_or_eq with h' | h'
    · have hα := sub_pos.2 h'
      have hk : 0 < 2 / ((b - a) * (b - c)) := by positivity
      have eq : ∀ x ∈ Ioo c b, φ x = (fun y => 2 / ((b - a) * (b - c)) * y * Real.log (2 / ((b - a) * (b - c)) * y)) (b - x) := by
        intro x hx
        simp only [hφ]
        rw [tri_right x h1 hx.1 hx.2.le]
        congr 2 <;> ring
      have ci : Continuous fun x : ℝ => (fun y => 2 / ((b - a) * (b - c)) * y * Real.log (2 / ((b - a) * (b - c)) * y)) (b - x) :=
        (side _).comp (continuous_const.sub continuous_id)
      constructor
      · rw [intervalIntegrable_iff_integrableOn_Ioo_of_le h2]
        exact ((intervalIntegrable_iff_integrableOn_Ioo_of_le h2).1 (ci.intervalIntegrable c b)).congr_fun
          (fun x hx => (eq x hx).symm) measurableSet_Ioo
      · rw [intervalIntegral.integral_of_le h2, integral_Ioc_eq_integral_Ioo, setIntegral_congr_fun measurableSet_Ioo eq,
          ← integral_Ioc_eq_integral_Ioo, ← intervalIntegral.integral_of_le h2,
          intervalIntegral.integral_comp_sub_left (fun y => 2 / ((b - a) * (b - c)) * y * Real.log (2 / ((b - a) * (b - c)) * y)) b,
          sub_self, slope_entropy hk hα.le]
        have : 2 / ((b - a) * (b - c)) * (b - c) = 2 / (b - a) := by field_simp
        rw [this]
        field_simp
        ring
    · subst h'; simp
  unfold entropyOf
  rw [e0, ← intervalIntegral.integral_add_adjacent_intervals L.1 R.1, L.2, R.2, ← add_mul, ← add_div,
    show c - a + (b - c) = b - a by ring, div_self hW.ne', one_mul,
    show (b - a) / 2 = (2 / (b - a))⁻¹ by rw [inv_div], Real.log_inv]
  ring

end

end Verif.Lemmas.Widest
