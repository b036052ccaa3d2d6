import Verif.Spec.QuartileShape
import Verif.Lemmas.LocScale
import Verif.Lemmas.LawBase
import Verif.Lemmas.RiceWeibull
import Mathlib.MeasureTheory.Integral.IntegralEqImproper
import Mathlib.Analysis.SpecialFunctions.Pow.Deriv

/-!
# Distribution functions of densities with an antiderivative (C120)
-/

namespace Verif.Lemmas.QuartileShape
open MeasureTheory Set Filter Topology Verif.Spec

theorem real_pdf {f : ℝ → ℝ} {s : Set ℝ} (hs : MeasurableSet s) (h0 : ∀ x, 0 ≤ f x) (hi : IntegrableOn f s) :
    (ofPdf f).real s = ∫ y in s, f y := by
  unfold ofPdf Measure.real
  rw [withDensity_apply _ hs, ← ofReal_integral_eq_lintegral_ofReal hi (ae_of_all _ h0),
    ENNReal.toReal_ofReal (integral_nonneg h0)]

theorem cdf_from {f G : ℝ → ℝ} (h0 : ∀ x, 0 ≤ f x) {a x : ℝ} (hax : a ≤ x) (hz : ∀ y < a, f y = 0)
    (hc : ContinuousOn G (Icc a x)) (hd : ∀ y ∈ Ioo a x, HasDerivAt G (f y) y) :
    (ofPdf f).real (Iic x) = G x - G a := by
  have ii : IntervalIntegrable f volume a x :=
    intervalIntegral.intervalIntegrable_deriv_of_nonneg (by rwa [uIcc_of_le hax])
      (by simpa [min_eq_left hax, max_eq_right hax] using hd) fun y _ => h0 y
  have i1 : IntegrableOn f (Ioc a x) := (intervalIntegrable_iff_integrableOn_Ioc_of_le hax).1 ii
  have i0 : IntegrableOn f (Iio a) := by
    refine (integrableOn_zero (μ := volume) (s := Iio a)).congr_fun (fun y hy => ?_) measurableSet_Iio
    simp [hz y hy]
  have i0' : IntegrableOn f (Iic a) := by rwa [integrableOn_Iic_iff_integrableOn_Iio]
  have hU : Iic x = Iic a ∪ Ioc a x := (Iic_union_Ioc_eq_Iic hax).symm
  have hi : IntegrableOn f (Iic x) := by rw [hU]; exact i0'.union i1
  rw [real_pdf measurableSet_Iic h0 hi, hU, setIntegral_union (by
    rw [Set.disjoint_left]; rintro y hy ⟨hy', -⟩; exact absurd hy (not_le.2 hy')) measurableSet_Ioc i0' i1,
    ← intervalIntegral.integral_of_le hax, integral_Iic_eq_integral_Iio,
    setIntegral_congr_fun measurableSet_Iio (g := fun _ => (0 : ℝ)) (fun y hy => hz y hy),
    intervalIntegral.integral_eq_sub_of_hasDerivAt_of_le hax hc hd ii]
  simp

theorem cdf_below {f : ℝ → ℝ} {x : ℝ} (hz : ∀ y ≤ x, f y = 0) : (ofPdf f).real (Iic x) = 0 := by
  unfold ofPdf Measure.real
  rw [withDensity_apply _ measurableSet_Iic, setLIntegral_congr_fun (g := fun _ => 0) measurableSet_Iic
    (fun y hy => by simp [hz y hy])]
  simp

theorem cdf_line {f G : ℝ → ℝ} (h0 : ∀ x, 0 ≤ f x) (hd : ∀ y, HasDerivAt G (f y) y) (hl : Tendsto G atBot (𝓝 0)) (x : ℝ) :
    (ofPdf f).real (Iic x) = G x := by
  have hc : ContinuousWithinAt G (Iic x) x := (hd x).continuousAt.continuousWithinAt
  have ii : ∀ n : ℕ, IntervalIntegrable f volume (x - n) x := fun n =>
    intervalIntegral.intervalIntegrable_deriv_of_nonneg (fun y _ => (hd y).continuousAt.continuousWithinAt)
      (fun y _ => hd y) fun y _ => h0 y
  have hi : IntegrableOn f (Iic x) := by
    refine integrableOn_Iic_of_intervalIntegral_norm_tendsto (G x) x (l := atTop) (a := fun n : ℕ => x - n)
      (fun n => ?_) (tendsto_atBot_add_const_left _ x (tendsto_neg_atTop_atBot.comp tendsto_natCast_atTop_atTop)) ?_
    · exact (intervalIntegrable_iff_integrableOn_Ioc_of_le (by simp)).1 (ii n)
    · have e : (fun n : ℕ => ∫ y in (x - n)..x, ‖f y‖) = fun n : ℕ => G x - G (x - n) := by
        funext n
        rw [← intervalIntegral.integral_eq_sub_of_hasDerivAt (fun y _ => hd y) (ii n)]
        exact intervalIntegral.integral_congr fun y _ => Real.norm_of_nonneg (h0 y)
      rw [e]
      have := (hl.comp (tendsto_atBot_add_const_left _ x (tendsto_neg_atTop_atBot.comp
        (tendsto_natCast_atTop_atTop (R := ℝ))))).const_sub (G x)
      rwa [sub_zero] at this
  rw [real_pdf measurableSet_Iic h0 hi, integral_Iic_of_hasDerivAt_of_tendsto hc (fun y _ => hd y) hi hl, sub_zero]

/-! ### the six families -/

theorem cdf_gumbel (m : ℝ) {b : ℝ} (hb : 0 < b) (x : ℝ) :
    (ofPdf (gumbelPdf m b)).real (Iic x) = Real.exp (-Real.exp (-((x - m) / b))) := by
  refine cdf_line (G := fun x => Real.exp (-Real.exp (-((x - m) / b))))
    (fun y => by unfold gumbelPdf; positivity) (fun y => ?_) ?_ x
  · have h := (((((hasDerivAt_id y).sub_const m).div_const b).neg.exp).neg).exp
    refine HasDerivAt.congr_deriv h ?_
    unfold gumbelPdf
    simp only [id, Pi.neg_apply]
    rw [neg_add, Real.exp_add]
    ring
  · refine Real.tendsto_exp_neg_atTop_nhds_zero.comp (Real.tendsto_exp_atTop.comp ?_)
    refine tendsto_neg_atBot_atTop.comp (Tendsto.atBot_div_const hb (tendsto_atBot_add_const_right _ (-m) tendsto_id))

theorem cdf_weibull {a b : ℝ} (ha : 0 < a) (hb : 0 < b) {x : ℝ} (hx : 0 < x) :
    (ofPdf (weibullPdf a b)).real (Iic x) = 1 - Real.exp (-(x / b) ^ a) := by
  rw [cdf_from (a := 0) (x := x) (G := fun x => -Real.exp (-(x / b) ^ a)) (weibullPdf_nonneg ha hb) hx.le
    (fun y hy => by simp [weibullPdf, hy.le]) ?_ ?_]
  · simp only [zero_div, Real.zero_rpow ha.ne', neg_zero, Real.exp_zero]; ring
  · have : Continuous fun x : ℝ => (x / b) ^ a := (continuous_id.div_const b).rpow_const fun _ => .inr ha.le
    exact (Real.continuous_exp.comp this.neg).neg.continuousOn
  · intro y hy
    have hy0 : 0 < y := hy.1
    have h := ((((hasDerivAt_id y).div_const b).rpow_const (p := a) (.inl (by simp only [id]; positivity))).neg.exp).neg
    refine HasDerivAt.congr_deriv h ?_
    simp only [weibullPdf, if_neg (not_le.2 hy0), id, Pi.neg_apply]
    ring

theorem cdf_logLogistic {a b : ℝ} (ha : 0 < a) (hb : 0 < b) {x : ℝ} (hx : 0 < x) :
    (ofPdf (logLogisticPdf a b)).real (Iic x) = 1 - 1 / (1 + (x / a) ^ b) := by
  rw [cdf_from (a := 0) (x := x) (G := fun x => -(1 + (x / a) ^ b)⁻¹) ?_ hx.le
    (fun y hy => by simp [logLogisticPdf, hy.le]) ?_ ?_]
  · simp only [zero_div, Real.zero_rpow hb.ne']; ring
  · intro y
    unfold logLogisticPdf
    split_ifs <;> positivity
  · have : Continuous fun x : ℝ => (x / a) ^ b := (continuous_id.div_const a).rpow_const fun _ => .inr hb.le
    refine ContinuousOn.neg (ContinuousOn.inv₀ (continuous_const.add this).continuousOn fun y hy => ?_)
    have : 0 ≤ y / a := div_nonneg hy.1 ha.le
    positivity
  · intro y hy
    have hy0 : 0 < y := hy.1
    have h1 := ((hasDerivAt_id y).div_const a).rpow_const (p := b) (.inl (by simp only [id]; positivity))
    have h := ((h1.const_add 1).inv (by simp only [id]; positivity)).neg
    refine HasDerivAt.congr_deriv h ?_
    simp only [logLogisticPdf, if_pos hy0, id]
    field_simp

theorem cdf_pareto {a m : ℝ} (ha : 0 < a) (hm : 0 < m) (x : ℝ) :
    (ofPdf (paretoPdf a m)).real (Iic x) = if m ≤ x then 1 - (m / x) ^ a else 0 := by
  split_ifs with h
  · rw [cdf_from (a := m) (x := x) (G := fun x => -(m ^ a * x ^ (-a))) ?_ h (fun y hy => by simp [paretoPdf, hy]) ?_ ?_]
    · have hx := hm.trans_le h
      rw [← Real.rpow_add hm, Real.div_rpow hm.le hx.le, Real.rpow_neg hx.le]
      simp; ring
    · intro y
      unfold paretoPdf
      split_ifs with hy
      · have := hm.trans_le hy
        positivity
      · exact le_rfl
    · refine ContinuousOn.neg (continuousOn_const.mul fun y hy => ?_)
      have : 0 < y := hm.trans_le hy.1
      exact (Real.continuousAt_rpow_const _ _ (.inl this.ne')).continuousWithinAt
    · intro y hy
      have hy0 : 0 < y := hm.trans hy.1
      have h := (((hasDerivAt_id y).rpow_const (p := -a) (.inl hy0.ne')).const_mul (m ^ a)).neg
      refine HasDerivAt.congr_deriv h ?_
      simp only [paretoPdf, if_pos hy.1.le, id]
      rw [show -a - 1 = -(a + 1) by ring, Real.rpow_neg hy0.le]
      ring
  · exact cdf_below fun y hy => by simp [paretoPdf]; intro; linarith

theorem cdf_uniform {l u : ℝ} (h : l < u) {x p : ℝ} (h0 : 0 < p) (h1 : p < 1) :
    (ofPdf (uniformPdf l u)).real (Iic x) = p ↔ x = l + p * (u - l) := by
  have hd : 0 < u - l := by linarith
  have n0 : ∀ y, 0 ≤ uniformPdf l u y := fun y => by unfold uniformPdf; split_ifs <;> positivity
  have zl : ∀ y < l, uniformPdf l u y = 0 := fun y hy => by
    unfold uniformPdf; rw [if_neg]; intro hh; linarith [hh.1]
  have main : ∀ y, l ≤ y → y ≤ u → (ofPdf (uniformPdf l u)).real (Iic y) = (y - l) / (u - l) := by
    intro y hy hu
    rw [cdf_from (G := fun y => (y - l) / (u - l)) n0 hy zl (by fun_prop) fun t ht => ?_]
    · simp
    · have := ((hasDerivAt_id t).sub_const l).div_const (u - l)
      refine HasDerivAt.congr_deriv this ?_
      unfold uniformPdf
      rw [if_pos ⟨ht.1.le, ht.2.le.trans hu⟩]
  have prob : IsFiniteMeasure (ofPdf (uniformPdf l u)) := by
    unfold ofPdf
    refine isFiniteMeasure_withDensity_ofReal (Integrable.hasFiniteIntegral ?_)
    have : uniformPdf l u = (Icc l u).indicator fun _ => 1 / (u - l) := by
      funext y; simp only [uniformPdf, indicator, mem_Icc]
    rw [this, integrable_indicator_iff measurableSet_Icc]
    exact integrableOn_const (by simp)
  rcases lt_or_ge x l with hx | hx
  · rw [cdf_below fun y hy => zl y (by linarith)]
    constructor
    · intro e; linarith
    · intro e; nlinarith
  rcases le_or_gt x u with hu | hu
  · rw [main x hx hu, div_eq_iff hd.ne']
    constructor <;> intro e <;> linarith
  · constructor
    · intro e
      have : (ofPdf (uniformPdf l u)).real (Iic u) ≤ (ofPdf (uniformPdf l u)).real (Iic x) :=
        measureReal_mono (Iic_subset_Iic.2 hu.le)
      rw [main u h.le le_rfl, div_self hd.ne', e] at this
      linarith
    · intro e; nlinarith

theorem cdf_logNormal (m : ℝ) {s : ℝ} (hs : 0 < s) {x : ℝ} (hx : 0 < x) :
    (ofPdf fun x => if 0 < x then logNormalPdf m s x else 0).real (Iic x) =
      (ofPdf (normalPdf m s)).real (Iic (Real.log x)) := by
  have hg := LocScale.peak_fam .normal trivial
  have hN : Integrable (normalPdf m s) := by
    have := LocScale.moved_int hg m hs
    rwa [← LocScale.fam_moved .normal m hs] at this
  have hn : ∀ z, 0 ≤ normalPdf m s z := fun z => by unfold normalPdf; positivity
  have e : ∀ z, Real.exp z * logNormalPdf m s (Real.exp z) = normalPdf m s z := by
    intro z
    unfold logNormalPdf normalPdf
    rw [Real.log_exp]
    have := (Real.exp_pos z).ne'
    field_simp
  have H : Law.HI ((Iic (Real.log x)).indicator (normalPdf m s)) (∫ z in Iic (Real.log x), normalPdf m s z) :=
    ⟨hN.indicator measurableSet_Iic, integral_indicator measurableSet_Iic⟩
  have K : Law.HIs (Ioi 0) ((Iic x).indicator (logNormalPdf m s)) (∫ z in Iic (Real.log x), normalPdf m s z) := by
    rw [Law.HIs.exp]
    refine H.congr fun z => ?_
    simp only [indicator, mem_Iic, ← e z]
    by_cases h : z ≤ Real.log x
    · rw [if_pos h, if_pos ((Real.le_log_iff_exp_le hx).1 h)]
    · rw [if_neg h, if_neg (fun h' => h ((Real.le_log_iff_exp_le hx).2 h')), mul_zero]
  have e2 : ∀ y, (Ioi 0).indicator ((Iic x).indicator (logNormalPdf m s)) y =
      (Iic x).indicator (fun x => if 0 < x then logNormalPdf m s x else 0) y := by
    intro y
    simp only [indicator, mem_Iic, mem_Ioi]
    split_ifs <;> rfl
  obtain ⟨k1, k2⟩ := (K.all measurableSet_Ioi).congr e2
  rw [integrable_indicator_iff measurableSet_Iic] at k1
  rw [integral_indicator measurableSet_Iic] at k2
  rw [real_pdf measurableSet_Iic (fun y => ?_) k1, k2, real_pdf measurableSet_Iic hn hN.integrableOn]
  split_ifs with hy
  · unfold logNormalPdf; positivity
  · exact le_rfl

end Verif.Lemmas.QuartileShape
