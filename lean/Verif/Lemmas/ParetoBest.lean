import Verif.Spec.ParetoBest
import Verif.Lemmas.QuartileShape

/-!
# Mass and entropy of Pareto distributions
-/

namespace Verif.Lemmas.ParetoBest
open MeasureTheory Set Filter Topology Verif.Spec Verif.Lemmas.QuartileShape

theorem pdf_ind {a m : ℝ} (hm : 0 < m) :
    paretoPdf a m = (Ici m).indicator fun x => a * m ^ a * x ^ (-(a + 1)) := by
  funext x
  unfold paretoPdf
  by_cases h : m ≤ x
  · have hx : 0 < x := hm.trans_le h
    rw [if_pos h, indicator_of_mem (mem_Ici.2 h), Real.rpow_neg hx.le, div_eq_mul_inv]
  · rw [if_neg h, indicator_of_notMem (by simpa using h)]

theorem pdf_nonneg {a m : ℝ} (ha : 0 < a) (hm : 0 < m) (x : ℝ) : 0 ≤ paretoPdf a m x := by
  unfold paretoPdf
  split_ifs with h
  · have : 0 < x := hm.trans_le h
    positivity
  · exact le_rfl

theorem pdf_meas (a m : ℝ) : Measurable (paretoPdf a m) := by
  unfold paretoPdf
  exact Measurable.ite measurableSet_Ici (by fun_prop) measurable_const

theorem pdf_int {a m : ℝ} (ha : 0 < a) (hm : 0 < m) : Integrable (paretoPdf a m) ∧ ∫ x, paretoPdf a m x = 1 := by
  have h1 : IntegrableOn (fun x : ℝ => a * m ^ a * x ^ (-(a + 1))) (Ici m) :=
    (((integrableOn_Ici_iff_integrableOn_Ioi).mpr (integrableOn_Ioi_rpow_of_lt (by linarith) hm)).const_mul _)
  rw [pdf_ind hm]
  refine ⟨(integrable_indicator_iff measurableSet_Ici).2 h1, ?_⟩
  rw [integral_indicator measurableSet_Ici, integral_const_mul, integral_Ici_eq_integral_Ioi,
    integral_Ioi_rpow_of_lt (by linarith) hm, show -(a + 1) + 1 = -a by ring, Real.rpow_neg hm.le]
  have := Real.rpow_pos_of_pos hm a
  field_simp

theorem pdf_prob {a m : ℝ} (ha : 0 < a) (hm : 0 < m) : IsProbabilityMeasure (ofPdf (paretoPdf a m)) := by
  obtain ⟨h1, h2⟩ := pdf_int ha hm
  refine ⟨?_⟩
  unfold ofPdf
  rw [withDensity_apply _ MeasurableSet.univ, Measure.restrict_univ,
    ← ofReal_integral_eq_lintegral_ofReal h1 (ae_of_all _ (pdf_nonneg ha hm)), h2, ENNReal.ofReal_one]

theorem mass_sub {a m : ℝ} (ha : 0 < a) (hm : 0 < m) {l u : ℝ} (h : l ≤ u) :
    massOf (paretoPdf a m) l u = (ofPdf (paretoPdf a m)).real (Iic u) - (ofPdf (paretoPdf a m)).real (Iic l) := by
  have hi := (pdf_int ha hm).1
  unfold massOf
  rw [real_pdf measurableSet_Icc (pdf_nonneg ha hm) hi.integrableOn, real_pdf measurableSet_Iic (pdf_nonneg ha hm) hi.integrableOn,
    real_pdf measurableSet_Iic (pdf_nonneg ha hm) hi.integrableOn, integral_Icc_eq_integral_Ioc,
    ← intervalIntegral.integral_of_le h, intervalIntegral.integral_Iic_sub_Iic hi.integrableOn hi.integrableOn]

/-- the mass of an interval -/
theorem mass {a m : ℝ} (ha : 0 < a) (hm : 0 < m) {l u : ℝ} (h : l ≤ u) :
    massOf (paretoPdf a m) l u =
      if u < m then 0 else if l < m then 1 - (m / u) ^ a else (m / l) ^ a - (m / u) ^ a := by
  rw [mass_sub ha hm h, cdf_pareto ha hm, cdf_pareto ha hm]
  split_ifs <;> first | linarith | ring

/-- the mean of the logarithm -/
theorem log_mean {a m : ℝ} (ha : 0 < a) (hm : 0 < m) :
    IntegrableOn (fun x : ℝ => a * m ^ a * x ^ (-(a + 1)) * Real.log (x / m)) (Ioi m) ∧
    ∫ x in Ioi m, a * m ^ a * x ^ (-(a + 1)) * Real.log (x / m) = 1 / a := by
  set H : ℝ → ℝ := fun x => -(m ^ a * x ^ (-a) * (Real.log (x / m) + 1 / a)) with hH
  have hma := Real.rpow_pos_of_pos hm a
  have hd : ∀ x ∈ Ioi m, HasDerivAt H (a * m ^ a * x ^ (-(a + 1)) * Real.log (x / m)) x := by
    intro x hx
    have hx0 : 0 < x := hm.trans hx
    have d1 := (hasDerivAt_id x).rpow_const (p := -a) (.inl hx0.ne')
    have d2 := (((hasDerivAt_id x).div_const m).log (by simp only [id]; positivity)).add_const (1 / a)
    have d := ((d1.const_mul (m ^ a)).mul d2).neg
    refine HasDerivAt.congr_deriv d ?_
    simp only [id]
    have e1 : x ^ (-a) = x ^ (-(a + 1)) * x := by
      rw [← Real.rpow_add_one hx0.ne']; congr 1; ring
    have e2 : x ^ (-a - 1) = x ^ (-(a + 1)) := by congr 1; ring
    rw [e2, e1]
    field_simp
    ring
  have hlim : Tendsto H atTop (𝓝 0) := by
    have t1 : Tendsto (fun x : ℝ => x ^ (-a)) atTop (𝓝 0) := tendsto_rpow_neg_atTop ha
    have t2 : Tendsto (fun x : ℝ => x ^ (-a) * Real.log x) atTop (𝓝 0) := by
      have := (isLittleO_log_rpow_atTop ha).tendsto_div_nhds_zero
      refine this.congr' ?_
      filter_upwards [eventually_gt_atTop 0] with x hx
      rw [Real.rpow_neg hx.le, div_eq_mul_inv, mul_comm]
    have t3 := ((t2.add (t1.mul_const (1 / a - Real.log m))).const_mul (m ^ a)).neg
    simp only [zero_mul, add_zero, mul_zero, neg_zero] at t3
    refine t3.congr' ?_
    filter_upwards [eventually_gt_atTop 0] with x hx
    rw [hH]
    simp only
    rw [Real.log_div hx.ne' hm.ne']
    ring
  have hcont : ContinuousWithinAt H (Ici m) m := by
    have : ContinuousAt H m := by
      refine ((continuousAt_const.mul (Real.continuousAt_rpow_const _ _ (.inl hm.ne'))).mul
        (((continuousAt_id.div_const m).log (by simp [hm.ne'])).add continuousAt_const)).neg
    exact this.continuousWithinAt
  have hnn : ∀ x ∈ Ioi m, 0 ≤ a * m ^ a * x ^ (-(a + 1)) * Real.log (x / m) := by
    intro x hx
    have hx0 : 0 < x := hm.trans hx
    have : 0 ≤ Real.log (x / m) := Real.log_nonneg (by rw [le_div_iff₀ hm]; linarith [mem_Ioi.1 hx])
    positivity
  have hint := integrableOn_Ioi_deriv_of_nonneg hcont hd hnn hlim
  refine ⟨hint, ?_⟩
  rw [integral_Ioi_of_hasDerivAt_of_tendsto hcont hd hint hlim, hH]
  simp only [div_self hm.ne', Real.log_one, zero_add, ← Real.rpow_add hm]
  rw [add_neg_cancel, Real.rpow_zero]
  ring

theorem entropy {a m : ℝ} (ha : 0 < a) (hm : 0 < m) :
    entropyOf (paretoPdf a m) = Real.log m - Real.log a + 1 / a + 1 := by
  obtain ⟨i1, v1⟩ := log_mean ha hm
  obtain ⟨i2, v2⟩ := pdf_int ha hm
  have hma := Real.rpow_pos_of_pos hm a
  rw [pdf_ind hm, integrable_indicator_iff measurableSet_Ici, integrableOn_Ici_iff_integrableOn_Ioi] at i2
  rw [pdf_ind hm, integral_indicator measurableSet_Ici, integral_Ici_eq_integral_Ioi] at v2
  unfold entropyOf
  have e : (fun x => paretoPdf a m x * Real.log (paretoPdf a m x)) = (Ici m).indicator fun x =>
      (Real.log a - Real.log m) * (a * m ^ a * x ^ (-(a + 1))) -
        (a + 1) * (a * m ^ a * x ^ (-(a + 1)) * Real.log (x / m)) := by
    funext x
    rw [pdf_ind hm]
    by_cases h : x ∈ Ici m
    · have hx : 0 < x := hm.trans_le h
      simp only [indicator_of_mem h]
      have hxa := Real.rpow_pos_of_pos hx (-(a + 1))
      rw [Real.log_mul (by positivity) (by positivity), Real.log_mul ha.ne' hma.ne', Real.log_rpow hm, Real.log_rpow hx,
        Real.log_div hx.ne' hm.ne']
      ring
    · simp [indicator_of_notMem h]
  rw [e, integral_indicator measurableSet_Ici, integral_Ici_eq_integral_Ioi,
    integral_sub (i2.const_mul _) (i1.const_mul _), integral_const_mul (Real.log a - Real.log m), v2,
    integral_const_mul (a + 1), v1]
  field_simp
  ring

/-! ## The best one -/

variable {l u p : ℝ}

theorem c_pos (h0 : 0 < p) (h1 : p < 1) : 0 < -Real.log (1 - p) := by
  have := Real.log_neg (by linarith : 0 < 1 - p) (by linarith)
  linarith

theorem reach_pos (hl : 0 < l) (hlu : l < u) (h0 : 0 < p) (h1 : p < 1) :
    0 < paretoReach l u p ∧ paretoReach l u p ≤ Real.log (u / l) := by
  have hL : 0 < Real.log (u / l) := Real.log_pos (by rw [lt_div_iff₀ hl]; linarith)
  have hc := c_pos h0 h1
  unfold paretoReach
  split_ifs with h
  · exact ⟨hL, le_rfl⟩
  · refine ⟨lt_min hL (div_pos hc (by linarith)), min_le_left _ _⟩

/-- the mass for a smallest value inside the interval -/
theorem mass_inside {a m : ℝ} (ha : 0 < a) (hl : 0 ≤ l) (hlm : l ≤ m) (hm : 0 < m) (hmu : m ≤ u) :
    massOf (paretoPdf a m) l u = 1 - Real.exp (-(a * Real.log (u / m))) := by
  have hu := hm.trans_le hmu
  have e : (m / u) ^ a = Real.exp (-(a * Real.log (u / m))) := by
    rw [Real.rpow_def_of_pos (by positivity), ← inv_div u m, Real.log_inv, neg_mul, mul_comm]
  rw [mass ha hm (hlm.trans hmu), if_neg (not_lt.2 hmu), ← e]
  rcases hlm.lt_or_eq with h | h
  · rw [if_pos h]
  · subst h
    rw [if_neg (lt_irrefl _), div_self hm.ne', Real.one_rpow]

/-- the entropy, seen from the upper end, as a function of the reach `t` -/
noncomputable def level (c t : ℝ) : ℝ := -t + Real.log t - Real.log c + t / c + 1

theorem entropy_inside {m c t : ℝ} (hc : 0 < c) (ht : 0 < t) (hm : 0 < m) (hu : 0 < u) (e : t = Real.log (u / m)) :
    entropyOf (paretoPdf (c / t) m) = Real.log u + level c t := by
  rw [entropy (by positivity) hm, Real.log_div hc.ne' ht.ne']
  have : Real.log m = Real.log u - t := by rw [e, Real.log_div hu.ne' hm.ne']; ring
  rw [this]
  unfold level
  field_simp
  ring

/-- the reach of the best distribution is the only best one -/
theorem level_best (hl : 0 < l) (hlu : l < u) (h0 : 0 < p) (h1 : p < 1) {t : ℝ} (ht : 0 < t) (htL : t ≤ Real.log (u / l))
    (hne : t ≠ paretoReach l u p) :
    level (-Real.log (1 - p)) t < level (-Real.log (1 - p)) (paretoReach l u p) := by
  obtain ⟨hs, hsL⟩ := reach_pos hl hlu h0 h1
  have hc := c_pos h0 h1
  set c := -Real.log (1 - p) with hcdef
  set s := paretoReach l u p with hsdef
  have hlog : Real.log t < Real.log s + (t - s) / s := by
    have h := Real.log_lt_sub_one_of_pos (x := t / s) (by positivity) (by
      rw [Ne, div_eq_one_iff_eq hs.ne']; exact hne)
    rw [Real.log_div ht.ne' hs.ne'] at h
    have : (t - s) / s = t / s - 1 := by field_simp
    linarith
  have hfac : (t - s) * (1 / s - 1 + 1 / c) ≤ 0 := by
    have hcase : (s = Real.log (u / l) ∧ 0 ≤ 1 / s - 1 + 1 / c) ∨ 1 / s - 1 + 1 / c = 0 := by
      by_cases hc1 : c ≤ 1
      · left
        have e : s = Real.log (u / l) := by rw [hsdef]; unfold paretoReach; rw [if_pos hc1]
        refine ⟨e, ?_⟩
        have : 1 ≤ 1 / c := by rw [le_div_iff₀ hc]; linarith
        have : 0 < 1 / s := by positivity
        linarith
      · have hc1' : 0 < c - 1 := by linarith [not_le.1 hc1]
        have e : s = min (Real.log (u / l)) (c / (c - 1)) := by rw [hsdef]; unfold paretoReach; rw [if_neg hc1]
        rcases le_total (Real.log (u / l)) (c / (c - 1)) with h | h
        · left
          rw [min_eq_left h] at e
          refine ⟨e, ?_⟩
          rw [← e] at h
          rw [le_div_iff₀ hc1'] at h
          have : 1 / s - 1 + 1 / c = (c - s * (c - 1)) / (s * c) := by field_simp; ring
          rw [this]
          exact div_nonneg (by linarith) (by positivity)
        · right
          rw [min_eq_right h] at e
          rw [e]
          field_simp
          ring
    rcases hcase with ⟨e, hf⟩ | hf
    · exact mul_nonpos_of_nonpos_of_nonneg (by rw [e]; linarith) hf
    · rw [hf, mul_zero]
  unfold level
  have : (t - s) * (1 / s - 1 + 1 / c) = (t - s) / s - t + s + t / c - s / c := by ring
  linarith

/-- a smallest value below the interval: less entropy than with `l` itself -/
theorem below {a m : ℝ} (ha : 0 < a) (hm : 0 < m) (hml : m < l) (hlu : l < u) (h0 : 0 < p) (h1 : p < 1)
    (hmass : massOf (paretoPdf a m) l u = p) :
    entropyOf (paretoPdf a m) < entropyOf (paretoPdf (-Real.log (1 - p) / Real.log (u / l)) l) := by
  have hl : 0 < l := hm.trans hml
  have hu : 0 < u := hl.trans hlu
  have hc := c_pos h0 h1
  have hL : 0 < Real.log (u / l) := Real.log_pos (by rw [lt_div_iff₀ hl]; linarith)
  set L := Real.log (u / l) with hLdef
  set c := -Real.log (1 - p) with hcdef
  rw [mass ha hm hlu.le, if_neg (by linarith), if_neg (by linarith)] at hmass
  -- the factor by which the interval shrinks
  set q := 1 - Real.exp (-(a * L)) with hq
  have e1 : (m / u) ^ a = (m / l) ^ a * Real.exp (-(a * L)) := by
    have : m / u = m / l * (u / l)⁻¹ := by field_simp
    rw [this, Real.mul_rpow (by positivity) (by positivity)]
    congr 1
    rw [Real.rpow_def_of_pos (by positivity), Real.log_inv, ← hLdef, neg_mul, mul_comm]
  have e2 : (m / l) ^ a * q = p := by rw [← hmass, e1, hq]; ring
  have hml1 : (m / l) ^ a < 1 := Real.rpow_lt_one (by positivity) (by rw [div_lt_one hl]; exact hml) ha
  have hmlp : 0 < (m / l) ^ a := by positivity
  have hq0 : 0 < q := by
    by_contra hneg
    have := mul_nonpos_of_nonneg_of_nonpos hmlp.le (not_lt.1 hneg)
    linarith
  have hq1 : q < 1 := by rw [hq]; linarith [Real.exp_pos (-(a * L))]
  have hpq : p < q := by nlinarith
  -- hence the exponent is larger
  have hac : c < a * L := by
    have : Real.exp (-(a * L)) < 1 - p := by linarith
    have := Real.log_lt_log (Real.exp_pos _) this
    rw [Real.log_exp] at this
    linarith
  have ha0 : c / L < a := by rw [div_lt_iff₀ hL]; exact hac
  have hlogm : Real.log m = Real.log l + (Real.log p - Real.log q) / a := by
    have : Real.log ((m / l) ^ a * q) = Real.log p := by rw [e2]
    rw [Real.log_mul hmlp.ne' hq0.ne', Real.log_rpow (by positivity), Real.log_div hm.ne' hl.ne'] at this
    field_simp
    linarith
  rw [entropy ha hm, entropy (by positivity) hl, hlogm]
  have hd0 : 0 < c / L := by positivity
  have g1 : Real.log (c / L) < Real.log a := Real.log_lt_log hd0 ha0
  have hlq : Real.log p < Real.log q := Real.log_lt_log h0 hpq
  have g2 : (Real.log p - Real.log q) / a + 1 / a ≤ 1 / (c / L) := by
    rw [← add_div]
    have : Real.log p - Real.log q + 1 ≤ 1 := by linarith
    calc (Real.log p - Real.log q + 1) / a ≤ 1 / a := by gcongr
      _ ≤ 1 / (c / L) := one_div_le_one_div_of_le hd0 ha0.le
  linarith

end Verif.Lemmas.ParetoBest
