import Verif.Spec.MoreLaws
import Verif.Lemmas.LawBase
import Verif.Lemmas.LawLaplace
import Verif.Lemmas.QuartileShape
import Mathlib.Analysis.SpecialFunctions.Gamma.Beta
import Mathlib.Analysis.SpecialFunctions.Pow.Deriv
import Mathlib.Analysis.SpecialFunctions.ImproperIntegrals
import Mathlib.Analysis.SpecialFunctions.Trigonometric.Bounds
import Mathlib.Tactic

/-!
# The integrals behind the Kumaraswamy and LogLogistic laws (C138)
-/

namespace Verif.Law
open MeasureTheory Set Verif.Spec

theorem betaHIs {p q : ℝ} (hp : 0 < p) (hq : 0 < q) :
    HIs (Ioo 0 1) (fun y => y ^ (p - 1) * (1 - y) ^ (q - 1)) (ProbabilityTheory.beta p q) := by
  have h := (betaRaw hp hq).one.cmul (ProbabilityTheory.beta p q)
  have hB := (ProbabilityTheory.beta_pos hp hq).ne'
  have h' : HI ((Ioo (0 : ℝ) 1).indicator fun y => y ^ (p - 1) * (1 - y) ^ (q - 1)) (ProbabilityTheory.beta p q) := by
    refine (h.congr fun x => ?_).val (mul_one _)
    by_cases hx : 0 < x ∧ x < 1
    · rw [indicator_of_mem (mem_Ioo.2 hx), betaPdf, if_pos hx]
      field_simp
    · rw [indicator_of_notMem (by rwa [mem_Ioo]), betaPdf, if_neg hx, mul_zero]
  exact ⟨(integrable_indicator_iff measurableSet_Ioo).mp h'.1, by rw [← integral_indicator measurableSet_Ioo, h'.2]⟩

/-- substitution by an increasing function -/
theorem HIs.subst {s : Set ℝ} (hs : MeasurableSet s) {F f : ℝ → ℝ} (hd : ∀ x ∈ s, HasDerivAt F (f x) x)
    (h0 : ∀ x ∈ s, 0 ≤ f x) (hi : InjOn F s) {g : ℝ → ℝ} {c : ℝ} :
    HIs (F '' s) g c ↔ HIs s (fun x => f x * g (F x)) c := by
  have hd' : ∀ x ∈ s, HasDerivWithinAt F (f x) s x := fun x hx => (hd x hx).hasDerivWithinAt
  have h1 := integrableOn_image_iff_integrableOn_abs_deriv_smul hs hd' hi g
  have h2 := integral_image_eq_integral_abs_deriv_smul hs hd' hi g
  have e : EqOn (fun x => |f x| • g (F x)) (fun x => f x * g (F x)) s := fun x hx => by
    simp only [abs_of_nonneg (h0 x hx), smul_eq_mul]
  rw [setIntegral_congr_fun hs e] at h2
  rw [integrableOn_congr_fun e hs] at h1
  unfold HIs
  rw [h1, h2]

/-! ## Kumaraswamy -/

theorem rpow_image {a : ℝ} (ha : 0 < a) : (fun x : ℝ => x ^ a) '' Ioo 0 1 = Ioo 0 1 := by
  ext y
  constructor
  · rintro ⟨x, hx, rfl⟩
    exact ⟨Real.rpow_pos_of_pos hx.1 a, Real.rpow_lt_one hx.1.le hx.2 ha⟩
  · intro hy
    refine ⟨y ^ (1 / a), ⟨Real.rpow_pos_of_pos hy.1 _, Real.rpow_lt_one hy.1.le hy.2 (by positivity)⟩, ?_⟩
    simp only
    rw [← Real.rpow_mul hy.1.le, one_div_mul_cancel ha.ne', Real.rpow_one]

theorem kumaraswamy_moment {a b s : ℝ} (ha : 0 < a) (hb : 0 < b) (hs : 0 ≤ s) :
    HIs (Ioo 0 1) (fun x => x ^ s * (a * b * x ^ (a - 1) * (1 - x ^ a) ^ (b - 1))) (b * ProbabilityTheory.beta (1 + s / a) b) := by
  have h := (betaHIs (p := 1 + s / a) (q := b) (by positivity) hb).cmul b
  have hd : ∀ x ∈ Ioo (0 : ℝ) 1, HasDerivAt (fun x : ℝ => x ^ a) (a * x ^ (a - 1)) x := fun x hx =>
    Real.hasDerivAt_rpow_const (p := a) (.inl hx.1.ne')
  have hn : ∀ x ∈ Ioo (0 : ℝ) 1, 0 ≤ a * x ^ (a - 1) := fun x hx => mul_nonneg ha.le (Real.rpow_nonneg hx.1.le _)
  have hi : InjOn (fun x : ℝ => x ^ a) (Ioo 0 1) := fun x hx y hy h =>
    (Real.rpow_left_injOn ha.ne') hx.1.le hy.1.le h
  rw [← rpow_image ha, HIs.subst measurableSet_Ioo hd hn hi] at h
  refine h.congr measurableSet_Ioo fun x hx => ?_
  have : (x ^ a) ^ (1 + s / a - 1) = x ^ s := by
    rw [← Real.rpow_mul hx.1.le]
    congr 1
    field_simp
    ring
  simp only [this]
  ring

theorem kumaraswamyRaw {a b : ℝ} (ha : 0 < a) (hb : 0 < b) :
    Raw (kumaraswamyPdf a b) (b * ProbabilityTheory.beta (1 + 1 / a) b) (b * ProbabilityTheory.beta (1 + 2 / a) b) := by
  refine Raw.congr (Raw.on (s := Ioo 0 1) (g := fun x => a * b * x ^ (a - 1) * (1 - x ^ a) ^ (b - 1)) measurableSet_Ioo
    (by fun_prop) (fun x hx => ?_) ?_ ?_ ?_) fun x => ?_
  · have : x ^ a ≤ 1 := Real.rpow_le_one hx.1.le hx.2.le ha.le
    have : 0 ≤ 1 - x ^ a := by linarith
    have := hx.1.le
    positivity
  · refine ((kumaraswamy_moment ha hb le_rfl).congr measurableSet_Ioo fun x hx => ?_).val ?_
    · simp
    · rw [zero_div, add_zero, ProbabilityTheory.beta, Real.Gamma_one, add_comm, Real.Gamma_add_one hb.ne']
      have := (Real.Gamma_pos_of_pos hb).ne'
      field_simp
  · refine (kumaraswamy_moment ha hb zero_le_one).congr measurableSet_Ioo fun x hx => ?_
    simp
  · refine (kumaraswamy_moment ha hb zero_le_two).congr measurableSet_Ioo fun x hx => ?_
    simp
  · unfold kumaraswamyPdf
    by_cases hx : 0 < x ∧ x < 1
    · rw [if_pos hx, indicator_of_mem (mem_Ioo.2 hx)]
    · rw [if_neg hx, indicator_of_notMem (by rwa [mem_Ioo])]

/-! ## LogLogistic -/

theorem logLogistic_deriv {a b : ℝ} (ha : 0 < a) {y : ℝ} (hy : 0 < y) :
    HasDerivAt (fun x => (x / a) ^ b / (1 + (x / a) ^ b)) (logLogisticPdf a b y) y := by
  have h1 := ((hasDerivAt_id y).div_const a).rpow_const (p := b) (.inl (by simp only [id]; positivity))
  have h := h1.div (h1.const_add 1) (by simp only [id]; positivity)
  refine HasDerivAt.congr_deriv h ?_
  simp only [logLogisticPdf, if_pos hy, id]
  field_simp
  ring

theorem logLogistic_inj {a b : ℝ} (ha : 0 < a) (hb : 0 < b) :
    InjOn (fun x : ℝ => (x / a) ^ b / (1 + (x / a) ^ b)) (Ioi 0) := by
  intro x hx y hy h
  have hx' : 0 < x / a := div_pos hx ha
  have hy' : 0 < y / a := div_pos hy ha
  have hX : 0 < (x / a) ^ b := by positivity
  have hY : 0 < (y / a) ^ b := by positivity
  simp only at h
  rw [div_eq_div_iff (by positivity) (by positivity)] at h
  have : (x / a) ^ b = (y / a) ^ b := by linarith
  have := (Real.rpow_left_injOn hb.ne') hx'.le hy'.le this
  field_simp at this
  exact this

theorem logLogistic_image {a b : ℝ} (ha : 0 < a) (hb : 0 < b) :
    (fun x : ℝ => (x / a) ^ b / (1 + (x / a) ^ b)) '' Ioi 0 = Ioo 0 1 := by
  ext y
  constructor
  · rintro ⟨x, hx, rfl⟩
    have hx' : 0 < x / a := div_pos hx ha
    have hX : 0 < (x / a) ^ b := by positivity
    exact ⟨by positivity, by simp only; rw [div_lt_one (by positivity)]; linarith⟩
  · intro hy
    have h1 : 0 < 1 - y := by linarith [hy.2]
    have h2 : 0 < y / (1 - y) := div_pos hy.1 h1
    refine ⟨a * (y / (1 - y)) ^ (1 / b), mem_Ioi.2 (by positivity), ?_⟩
    simp only
    rw [mul_div_cancel_left₀ _ ha.ne', ← Real.rpow_mul h2.le, one_div_mul_cancel hb.ne', Real.rpow_one]
    field_simp
    ring

theorem beta_sin {s : ℝ} (h0 : 0 < s) :
    ProbabilityTheory.beta (1 + s) (1 - s) = Real.pi * s / Real.sin (Real.pi * s) := by
  rw [ProbabilityTheory.beta, show 1 + s + (1 - s) = 1 + 1 by ring, Real.Gamma_add_one one_ne_zero, Real.Gamma_one, mul_one,
    div_one, add_comm, Real.Gamma_add_one h0.ne', mul_assoc, Real.Gamma_mul_Gamma_one_sub]
  ring

theorem logLogistic_moment {a b s : ℝ} (ha : 0 < a) (hb : 0 < b) (hs : 0 ≤ s) (hsb : s < b) :
    HIs (Ioi 0) (fun x => x ^ s * logLogisticPdf a b x) (a ^ s * ProbabilityTheory.beta (1 + s / b) (1 - s / b)) := by
  have h1 : s / b < 1 := by rwa [div_lt_one hb]
  have h := (betaHIs (p := 1 + s / b) (q := 1 - s / b) (by positivity) (by linarith)).cmul (a ^ s)
  rw [← logLogistic_image ha hb, HIs.subst (f := logLogisticPdf a b) measurableSet_Ioi
    (fun x hx => logLogistic_deriv ha hx) (fun x hx => ?_) (logLogistic_inj ha hb)] at h
  · refine h.congr measurableSet_Ioi fun x hx => ?_
    have hx0 : 0 < x := hx
    have hx' : 0 < x / a := div_pos hx ha
    have hX : 0 < (x / a) ^ b := by positivity
    have e1 : 1 - (x / a) ^ b / (1 + (x / a) ^ b) = 1 / (1 + (x / a) ^ b) := by
      field_simp
      ring
    have e2 : ((x / a) ^ b / (1 + (x / a) ^ b)) ^ (1 + s / b - 1) *
        (1 - (x / a) ^ b / (1 + (x / a) ^ b)) ^ (1 - s / b - 1) = (x / a) ^ s := by
      rw [e1, show 1 + s / b - 1 = s / b by ring, show 1 - s / b - 1 = -(s / b) by ring, one_div,
        Real.inv_rpow (by positivity), Real.rpow_neg (by positivity), inv_inv, Real.div_rpow hX.le (by positivity),
        ← Real.rpow_mul hx'.le, mul_div_cancel₀ _ hb.ne']
      have : 0 < (1 + (x / a) ^ b) ^ (s / b) := by positivity
      field_simp
    rw [e2, Real.div_rpow hx0.le ha.le]
    have : 0 < a ^ s := by positivity
    field_simp
  · have hx0 : 0 < x := hx
    rw [logLogisticPdf, if_pos hx0]
    positivity

theorem logLogistic_meas (a b : ℝ) : Measurable (logLogisticPdf a b) := by
  unfold logLogisticPdf
  exact Measurable.ite measurableSet_Ioi (by fun_prop) measurable_const

theorem logLogistic_nonneg {a b : ℝ} (ha : 0 < a) (hb : 0 < b) (x : ℝ) : 0 ≤ logLogisticPdf a b x := by
  unfold logLogisticPdf
  split_ifs <;> positivity

/-- the moment of order `s` over the whole line -/
theorem logLogistic_moment' {a b s : ℝ} (ha : 0 < a) (hb : 0 < b) (hs : 0 < s) (hsb : s < b) :
    HI (fun x => x ^ s * logLogisticPdf a b x) (a ^ s * (Real.pi * (s / b) / Real.sin (Real.pi * (s / b)))) := by
  rw [← beta_sin (by positivity)]
  refine ((logLogistic_moment ha hb hs.le hsb).all measurableSet_Ioi).congr fun x => ?_
  by_cases hx : 0 < x
  · rw [indicator_of_mem (mem_Ioi.2 hx)]
  · rw [indicator_of_notMem (by rwa [mem_Ioi]), logLogisticPdf, if_neg hx, mul_zero]

theorem logLogistic_one {a b : ℝ} (ha : 0 < a) (hb : 0 < b) : HI (logLogisticPdf a b) 1 := by
  have h := (logLogistic_moment ha hb le_rfl hb).val (d := 1) (by
    rw [zero_div, add_zero, sub_zero, ProbabilityTheory.beta, Real.rpow_zero, Real.Gamma_one, one_add_one_eq_two, Real.Gamma_two]
    norm_num)
  refine (h.all measurableSet_Ioi).congr fun x => ?_
  by_cases hx : 0 < x
  · rw [indicator_of_mem (mem_Ioi.2 hx), Real.rpow_zero, one_mul]
  · rw [indicator_of_notMem (by rwa [mem_Ioi]), logLogisticPdf, if_neg hx]

theorem logLogistic_first {a b : ℝ} (ha : 0 < a) (hb : 1 < b) :
    HI (fun x => x * logLogisticPdf a b x) (logLogisticMean a b) := by
  refine ((logLogistic_moment' ha (by linarith) zero_lt_one hb).congr fun x => by rw [Real.rpow_one]).val ?_
  unfold logLogisticMean
  rw [Real.rpow_one, mul_one_div]
  ring

theorem logLogistic_second {a b : ℝ} (ha : 0 < a) (hb : 2 < b) :
    HI (fun x => x ^ 2 * logLogisticPdf a b x)
      (a ^ 2 * (2 * (Real.pi / b) / Real.sin (2 * (Real.pi / b)))) := by
  refine ((logLogistic_moment' ha (by linarith) zero_lt_two hb).congr fun x => by rw [Real.rpow_two]).val ?_
  rw [Real.rpow_two, show Real.pi * (2 / b) = 2 * (Real.pi / b) by ring]

theorem logLogisticRaw {a b : ℝ} (ha : 0 < a) (hb : 2 < b) :
    Raw (logLogisticPdf a b) (logLogisticMean a b) (a ^ 2 * (2 * (Real.pi / b) / Real.sin (2 * (Real.pi / b)))) :=
  ⟨logLogistic_meas a b, logLogistic_nonneg ha (by linarith), logLogistic_one ha (by linarith),
    logLogistic_first ha (by linarith), logLogistic_second ha hb⟩

/-- moments of the order of `b` or more are infinite -/
theorem logLogistic_infinite {a b : ℝ} (ha : 0 < a) (hb : 0 < b) (n : ℕ) (hn : b ≤ n) :
    ¬ Integrable fun x => x ^ n * logLogisticPdf a b x := by
  intro h
  have h1 : IntegrableOn (fun x => x ^ n * logLogisticPdf a b x) (Ioi a) := h.integrableOn
  have h2 : IntegrableOn (fun x : ℝ => (b * a ^ b / 4) * x ^ ((n : ℝ) - b - 1)) (Ioi a) := by
    refine Integrable.mono' h1 (by fun_prop) ?_
    refine (ae_restrict_iff' measurableSet_Ioi).2 (ae_of_all _ fun x hx => ?_)
    have hax : a < x := hx
    have hx0 : 0 < x := ha.trans hax
    have hr : 1 ≤ x / a := by rw [one_le_div ha]; exact hax.le
    have hX : 1 ≤ (x / a) ^ b := Real.one_le_rpow hr hb.le
    rw [Real.norm_of_nonneg (by positivity), logLogisticPdf, if_pos hx0]
    have e0 : (1 + (x / a) ^ b) ^ 2 ≤ 4 * ((x / a) ^ b) ^ 2 := by nlinarith
    have e1 : b / a * (x / a) ^ (b - 1) / (4 * ((x / a) ^ b) ^ 2) ≤ b / a * (x / a) ^ (b - 1) / (1 + (x / a) ^ b) ^ 2 :=
      div_le_div_of_nonneg_left (by positivity) (by positivity) e0
    refine le_trans (le_of_eq ?_) (mul_le_mul_of_nonneg_left e1 (by positivity : (0 : ℝ) ≤ x ^ n))
    rw [Real.rpow_sub hx0, Real.rpow_sub hx0, Real.rpow_one, Real.rpow_natCast, Real.rpow_sub (by positivity), Real.rpow_one,
      Real.div_rpow hx0.le ha.le]
    have : 0 < x ^ b := by positivity
    have : 0 < a ^ b := by positivity
    field_simp
  have h3 : IntegrableOn (fun x : ℝ => x ^ ((n : ℝ) - b - 1)) (Ioi a) := by
    have := Integrable.const_mul h2 (b * a ^ b / 4)⁻¹
    refine this.congr (ae_of_all _ fun x => ?_)
    have : 0 < a ^ b := by positivity
    field_simp
  rw [integrableOn_Ioi_rpow_iff ha] at h3
  linarith

/-! ## tan b / b -/

theorem two_sin_cos_lt {b : ℝ} (hb : 0 < b) : Real.sin b * Real.cos b < b := by
  have := Real.sin_lt (show 0 < 2 * b by linarith)
  rw [Real.sin_two_mul] at this
  linarith

theorem tan_ratio_mono : StrictMonoOn (fun b : ℝ => Real.tan b / b) (Ioo 0 (Real.pi / 2)) := by
  refine strictMonoOn_of_deriv_pos (convex_Ioo _ _) ?_ ?_
  · intro b hb
    have hc : Real.cos b ≠ 0 := (Real.cos_pos_of_mem_Ioo ⟨by linarith [hb.1, Real.pi_pos], hb.2⟩).ne'
    exact ((Real.hasDerivAt_tan hc).div (hasDerivAt_id b) hb.1.ne').continuousAt.continuousWithinAt
  · intro b hb
    rw [interior_Ioo] at hb
    have hc : 0 < Real.cos b := Real.cos_pos_of_mem_Ioo ⟨by linarith [hb.1, Real.pi_pos], hb.2⟩
    have h := ((Real.hasDerivAt_tan hc.ne').div (hasDerivAt_id b) hb.1.ne').deriv
    rw [show (fun b : ℝ => Real.tan b / b) = (Real.tan / id) from rfl, h]
    simp only [id, Real.tan_eq_sin_div_cos]
    have hb0 := hb.1
    have : (1 / Real.cos b ^ 2 * b - Real.sin b / Real.cos b * 1) = (b - Real.sin b * Real.cos b) / Real.cos b ^ 2 := by
      field_simp
    rw [this]
    have := two_sin_cos_lt hb0
    have : 0 < b - Real.sin b * Real.cos b := by linarith
    positivity

theorem tan_ratio_attained {r : ℝ} (hr : 1 < r) : ∃ b ∈ Ioo 0 (Real.pi / 2), Real.tan b / b = r := by
  have hr0 : 0 < 1 / r := by positivity
  have hr1 : 1 / r < 1 := by rw [div_lt_one (by linarith)]; exact hr
  set b0 := Real.arccos ((1 + 1 / r) / 2) with hb0
  have hc0 : Real.cos b0 = (1 + 1 / r) / 2 := Real.cos_arccos (by linarith) (by linarith)
  have hp : 0 < b0 := Real.arccos_pos.2 (by linarith)
  have hlt : b0 < Real.pi / 2 := Real.arccos_lt_pi_div_two.2 (by linarith)
  have hc : ContinuousOn (fun b => Real.sin b - r * b * Real.cos b) (Icc b0 (Real.pi / 2)) := by fun_prop
  have h := intermediate_value_Ioo hlt.le hc
  have hz : (0 : ℝ) ∈ Ioo (Real.sin b0 - r * b0 * Real.cos b0) (Real.sin (Real.pi / 2) - r * (Real.pi / 2) * Real.cos (Real.pi / 2)) := by
    constructor
    · have h1 := Real.sin_lt hp
      have h2 : r * Real.cos b0 = (r + 1) / 2 := by rw [hc0]; field_simp
      have h3 : r * b0 * Real.cos b0 = b0 * ((r + 1) / 2) := by rw [← h2]; ring
      rw [h3]
      nlinarith
    · rw [Real.sin_pi_div_two, Real.cos_pi_div_two]; norm_num
  obtain ⟨b, hb, e⟩ := h hz
  refine ⟨b, ⟨hp.trans hb.1, hb.2⟩, ?_⟩
  have hcb : 0 < Real.cos b := Real.cos_pos_of_mem_Ioo ⟨by linarith [hb.1, hp, Real.pi_pos], hb.2⟩
  have hb' : 0 < b := hp.trans hb.1
  simp only at e
  rw [Real.tan_eq_sin_div_cos]
  field_simp
  linarith

end Verif.Law
