import Verif.Model.UnitFit
import Verif.Lemmas.MoreLaws
import Verif.Lemmas.LogitNormalLaw
import Verif.Lemmas.VonMisesLaw
import Verif.Lemmas.SkewLaw
import Verif.Props.NumFit
import Verif.Props.QuartileShape

/-!
# C138: the documented laws of Kumaraswamy, LogLogistic, LogitNormal and VonMises, and their moment fits
-/

namespace Verif.Props
open MeasureTheory ProbabilityTheory Set Verif.Spec Verif.Param Verif.NumFit Verif.Optim Verif.UnitFit

/-! ### Kumaraswamy -/

/-- **C138**: the documented density of Kumaraswamy has total mass one, the documented mean and the documented variance -/
theorem kumaraswamy_law {a b : ℝ} (ha : 0 < a) (hb : 0 < b) :
    HasMoments (ofPdf (kumaraswamyPdf a b)) (kumaraswamyMean a b) (kumaraswamyVar a b) :=
  (Law.kumaraswamyRaw ha hb).moments

/-- **C138**: the mass up to `x` -/
theorem kumaraswamy_cdf {a b : ℝ} (ha : 0 < a) (hb : 0 < b) {x : ℝ} (h0 : 0 < x) (h1 : x < 1) :
    (ofPdf (kumaraswamyPdf a b)).real (Iic x) = 1 - (1 - x ^ a) ^ b := by
  have hlt : ∀ y ∈ Icc 0 x, 0 < 1 - y ^ a := fun y hy => by
    have := Real.rpow_lt_one hy.1 (hy.2.trans_lt h1) ha
    linarith
  rw [Lemmas.QuartileShape.cdf_from (a := 0) (x := x) (G := fun x => -(1 - x ^ a) ^ b) ?_ h0.le
    (fun y hy => by simp [kumaraswamyPdf, hy.le.not_gt]) ?_ ?_]
  · simp only [Real.zero_rpow ha.ne', sub_zero, Real.one_rpow]; ring
  · exact (Law.kumaraswamyRaw ha hb).nonneg
  · have : Continuous fun x : ℝ => x ^ a := Real.continuous_rpow_const ha.le
    refine ContinuousOn.neg (ContinuousOn.rpow_const (continuous_const.sub this).continuousOn fun y hy => .inl (hlt y hy).ne')
  · intro y hy
    have h2 := hlt y ⟨hy.1.le, hy.2.le⟩
    have h := (((Real.hasDerivAt_rpow_const (p := a) (.inl hy.1.ne')).const_sub 1).rpow_const (p := b) (.inl h2.ne')).neg
    refine HasDerivAt.congr_deriv h ?_
    rw [kumaraswamyPdf, if_pos ⟨hy.1, hy.2.trans h1⟩]
    ring

/-- Kumaraswamy(1, 1) is the uniform law: mean 1/2, variance 1/12 -/
example : kumaraswamyMean 1 1 = 1 / 2 ∧ kumaraswamyVar 1 1 = 1 / 12 := by
  unfold kumaraswamyMean kumaraswamyVar beta
  norm_num [Real.Gamma_one, Real.Gamma_two]

/-! ### LogLogistic -/

/-- **C138**: the documented density of LogLogistic has the documented mean and variance when `beta` is more than 2 -/
theorem loglogistic_law {a b : ℝ} (ha : 0 < a) (hb : 2 < b) :
    HasMoments (ofPdf (logLogisticPdf a b)) (logLogisticMean a b) (logLogisticVar a b) := by
  have h := (Law.logLogisticRaw ha hb).moments
  convert h using 1
  unfold logLogisticMean logLogisticVar
  have hb0 : b ≠ 0 := by linarith
  ring

/-- **C138**: the mean needs `beta` more than 1 -/
theorem loglogistic_mean {a b : ℝ} (ha : 0 < a) (hb : 1 < b) :
    IsProbabilityMeasure (ofPdf (logLogisticPdf a b)) ∧ Integrable (fun x : ℝ => x) (ofPdf (logLogisticPdf a b)) ∧
      ∫ x, x ∂ofPdf (logLogisticPdf a b) = logLogisticMean a b := by
  have hb0 : 0 < b := by linarith
  have hm := Law.logLogistic_meas a b
  have h0 := Law.logLogistic_nonneg ha hb0
  have h1 := Law.logLogistic_one ha hb0
  have hf := Law.logLogistic_first ha hb
  refine ⟨⟨?_⟩, (Law.ofPdf_integrable hm h0 _).2 hf.1, by rw [Law.ofPdf_integral hm h0, hf.2]⟩
  rw [ofPdf, withDensity_apply _ MeasurableSet.univ, setLIntegral_univ,
    ← ofReal_integral_eq_lintegral_ofReal h1.1 (ae_of_all _ h0), h1.2, ENNReal.ofReal_one]

/-- **C138** (negation): for `beta` at most 1 the law has no mean, and for `beta` at most 2 no variance -/
theorem loglogistic_no_moment {a b : ℝ} (ha : 0 < a) (hb : 0 < b) :
    (b ≤ 1 → ¬ Integrable (fun x : ℝ => x) (ofPdf (logLogisticPdf a b))) ∧
      (b ≤ 2 → ¬ Integrable (fun x : ℝ => x ^ 2) (ofPdf (logLogisticPdf a b))) := by
  have hm := Law.logLogistic_meas a b
  have h0 := Law.logLogistic_nonneg ha hb
  refine ⟨fun h hi => ?_, fun h hi => ?_⟩
  · rw [Law.ofPdf_integrable hm h0] at hi
    exact Law.logLogistic_infinite ha hb 1 (by simpa using h) (by simpa using hi)
  · rw [Law.ofPdf_integrable hm h0] at hi
    exact Law.logLogistic_infinite ha hb 2 (by simpa using h) hi

/-- **C138** (negation): the documented formula for the mean carries no restriction; at `beta = 2/3` it is negative, for a
distribution on the positive numbers -/
theorem loglogistic_doc_negative {a : ℝ} (ha : 0 < a) : logLogisticMean a (2 / 3) < 0 := by
  have h : Real.sin (Real.pi / (2 / 3)) = -1 := by
    rw [show Real.pi / (2 / 3) = Real.pi / 2 + Real.pi by ring, Real.sin_add_pi, Real.sin_pi_div_two]
  unfold logLogisticMean
  rw [h]
  have := Real.pi_pos
  have : 0 < a * Real.pi / (2 / 3) := by positivity
  linarith

/-- mean and variance in terms of `π / beta` -/
private theorem ll_ratio {a b : ℝ} (ha : 0 < a) (hb : 2 < b) :
    Real.pi / b ∈ Ioo 0 (Real.pi / 2) ∧ 0 < logLogisticMean a b ∧
      (logLogisticVar a b + logLogisticMean a b ^ 2) / logLogisticMean a b ^ 2 = Real.tan (Real.pi / b) / (Real.pi / b) := by
  have hp := Real.pi_pos
  have hb0 : 0 < b := by linarith
  have hx : Real.pi / b ∈ Ioo 0 (Real.pi / 2) := ⟨by positivity, div_lt_div_of_pos_left hp two_pos hb⟩
  have hm : logLogisticMean a b = a * (Real.pi / b) / Real.sin (Real.pi / b) := by unfold logLogisticMean; ring
  have hv : logLogisticVar a b = a ^ 2 * (2 * (Real.pi / b) / Real.sin (2 * (Real.pi / b)) -
    (Real.pi / b) ^ 2 / Real.sin (Real.pi / b) ^ 2) := rfl
  rw [hm, hv]
  revert hx
  generalize Real.pi / b = t
  intro hx
  have hs : 0 < Real.sin t := Real.sin_pos_of_pos_of_lt_pi hx.1 (by linarith [hx.2])
  have hc : 0 < Real.cos t := Real.cos_pos_of_mem_Ioo ⟨by linarith [hx.1], hx.2⟩
  have ht := hx.1
  refine ⟨hx, by positivity, ?_⟩
  rw [Real.sin_two_mul, Real.tan_eq_sin_div_cos]
  field_simp
  ring

/-- **C138**: every positive mean and standard deviation belong to exactly one LogLogistic -/
theorem loglogistic_unique {m s : ℝ} (hm : 0 < m) (hs : 0 < s) :
    ∃! p : ℝ × ℝ, 0 < p.1 ∧ 2 < p.2 ∧ logLogisticMean p.1 p.2 = m ∧ logLogisticVar p.1 p.2 = s ^ 2 := by
  have hp := Real.pi_pos
  have hr : 1 < (s ^ 2 + m ^ 2) / m ^ 2 := by
    rw [lt_div_iff₀ (by positivity)]
    nlinarith [pow_pos hs 2]
  obtain ⟨t, ht, e⟩ := Law.tan_ratio_attained hr
  have ht0 := ht.1
  have hst : 0 < Real.sin t := Real.sin_pos_of_pos_of_lt_pi ht.1 (by linarith [ht.2])
  have hb : 2 < Real.pi / t := by rw [lt_div_iff₀ ht0]; linarith [ht.2]
  have ha : 0 < m * Real.sin t / t := by positivity
  have hmean : logLogisticMean (m * Real.sin t / t) (Real.pi / t) = m := by
    unfold logLogisticMean
    rw [show Real.pi / (Real.pi / t) = t by field_simp]
    field_simp
  refine ⟨(m * Real.sin t / t, Real.pi / t), ⟨ha, hb, hmean, ?_⟩, ?_⟩
  · obtain ⟨-, -, h⟩ := ll_ratio ha hb
    rw [show Real.pi / (Real.pi / t) = t by field_simp, e, hmean, div_left_inj' (by positivity)] at h
    linarith
  · rintro ⟨a, b⟩ ⟨h1, h2, h3, h4⟩
    dsimp only at h1 h2 h3 h4
    have hb0 : b ≠ 0 := by linarith
    obtain ⟨k1, -, k3⟩ := ll_ratio h1 h2
    rw [h3, h4, ← e] at k3
    have ht' := (Law.tan_ratio_mono.injOn ht k1 k3)
    have hbe : b = Real.pi / t := by rw [ht']; field_simp
    subst hbe
    refine Prod.ext ?_ rfl
    dsimp only
    unfold logLogisticMean at h3
    rw [show Real.pi / (Real.pi / t) = t by field_simp] at h3
    rw [← h3]
    field_simp

/-- the scale is at least `2 / π` times the mean -/
private theorem ll_scale {a b : ℝ} (ha : 0 < a) (hb : 2 < b) : 2 / Real.pi * logLogisticMean a b ≤ a := by
  obtain ⟨hx, -, -⟩ := ll_ratio ha hb
  have hb0 : b ≠ 0 := by linarith
  have hm : logLogisticMean a b = a * (Real.pi / b) / Real.sin (Real.pi / b) := by unfold logLogisticMean; ring
  rw [hm]
  revert hx
  generalize Real.pi / b = t
  intro hx
  have hp := Real.pi_pos
  have hs : 0 < Real.sin t := Real.sin_pos_of_pos_of_lt_pi hx.1 (by linarith [hx.2])
  have h := Real.mul_le_sin hx.1.le hx.2.le
  rw [mul_div_assoc', div_le_iff₀ hs]
  nlinarith

/-- **C138**: the moment fit of LogLogistic with an optimiser that finds the minimum and a library that reports the documented
mean and standard deviation where they exist, and nothing that could be mistaken for the values asked for where they do not: the
result is the only LogLogistic with this mean and standard deviation.  (The box is `params_support`, loglogistic.py:59; a mean of
less than twice the machine epsilon may need a smaller scale than that allows.) -/
theorem loglogistic_fit (opt : Optimiser) (meanStd : List (Option ℝ) → ℝ × ℝ) (mean sigma : ℝ) (hm : 2 * eps ≤ mean)
    (hs : 0 < sigma) (o o1 : Obj) (ho : construct (.simple .logLogistic) (fun _ => none) = .ok o)
    (hst : update (.simple .logLogistic) [1, 5] o = .ok o1)
    (hlib : ∀ a b, 0 < a → 2 < b → meanStd [some a, some b] = (logLogisticMean a b, √(logLogisticVar a b)))
    (hno : ∀ a b, 0 < a → b ≤ 2 → meanStd [some a, some b] ≠ (mean, sigma))
    (F : List ℝ → Except Err (List ℝ))
    (hF : IsObjective (.simple .logLogistic) o.names o.attr (fun l => [ |(meanStd l).1 - mean| + |(meanStd l).2 - sigma|]) F)
    (hfind : Finds opt F (startAt o o1) (freeBounds o TwoFam.logLogistic.box)) :
    Gives (logLogisticMoments opt meanStd mean sigma TwoFam.logLogistic.box o) fun r =>
      ∃ a b, law (.simple .logLogistic) r.2 = [some a, some b] ∧ 0 < a ∧ 2 < b ∧
        HasMoments (ofPdf (logLogisticPdf a b)) mean (sigma ^ 2) := by
  have hep : (0 : ℝ) < eps := by unfold eps; positivity
  have hm0 : 0 < mean := by linarith
  obtain ⟨⟨a, b⟩, ⟨ha, hb, h3, h4⟩, -⟩ := loglogistic_unique hm0 hs
  dsimp only at ha hb h3 h4
  have hae : eps ≤ a := by
    have := ll_scale ha hb
    rw [h3] at this
    have hp := Real.pi_pos
    have h2 : 2 / Real.pi * (2 * eps) ≤ 2 / Real.pi * mean := mul_le_mul_of_nonneg_left hm (by positivity)
    have h5 : eps ≤ 2 / Real.pi * (2 * eps) := by
      rw [div_mul_eq_mul_div, le_div_iff₀ hp]
      nlinarith [Real.pi_le_four]
    linarith
  have he1 : eps < 1 := by unfold eps; norm_num
  have hin : InBox TwoFam.logLogistic.box [a, b] := by
    refine ⟨rfl, fun i hi _ => ?_⟩
    simp only [List.length_cons, List.length_nil] at hi
    interval_cases i <;> simp [TwoFam.box] <;> linarith
  obtain ⟨d, hd, hl⟩ := two_choice .logLogistic o ho a b hin
  have hsc : ScaledNames (.simple .logLogistic) o.names := by intro h; simp at h
  have hval : meanStd (law (.simple .logLogistic) d) = (mean, sigma) := by
    have hl' : law (.simple .logLogistic) d = [some a, some b] := hl
    rw [hl', hlib a b ha hb, h3, h4, Real.sqrt_sq hs.le]
  have hn : o1.names = o.names := by
    simp [construct, parametrize, simpleParam, simpleFam, allNotNone, blank, Obj.setAll, Obj.set, Except.ok_bind',
      Except.pure_eq] at ho
    subst ho
    simp [update, simpleUpdate, simpleFam, Obj.setAll, Obj.set] at hst
    subst hst
    rfl
  obtain ⟨r, hr, hr2⟩ := mean_sigma_exact opt (.simple .logLogistic) meanStd mean sigma [1, 5] o o1 hsc _ hst hn F hF hfind d hd hval
  obtain ⟨x, o', e1, e2, ⟨kvs, d', e3, e4, e5, -⟩, -⟩ := fit_best opt (.simple .logLogistic) o o1 hsc TwoFam.logLogistic.box _ F hF hfind
  obtain ⟨v, w, rfl, e7⟩ := two_filled .logLogistic o d' ho x kvs e3 e4
  rw [two_free .logLogistic o ho] at e2
  have hgood := (two_in .logLogistic v w e2).resolve_left (by simp)
  refine ⟨r, hr, v, w, ?_, ?_⟩
  · have : r = ([v, w], o') := by
      unfold optimizeMeanSigma at hr
      dsimp only at hr
      rw [hst] at hr
      simp only [Except.ok_bind'] at hr
      rw [hn, show meanSigmaResidual meanStd mean sigma =
        fun l => [ |(meanStd l).1 - mean| + |(meanStd l).2 - sigma|] from rfl, e1] at hr
      simpa using hr.symm
    rw [this]
    exact e5.trans e7
  · have hlaw : law (.simple .logLogistic) r.2 = [some v, some w] := by
      have : r = ([v, w], o') := by
        unfold optimizeMeanSigma at hr
        dsimp only at hr
        rw [hst] at hr
        simp only [Except.ok_bind'] at hr
        rw [hn, show meanSigmaResidual meanStd mean sigma =
          fun l => [ |(meanStd l).1 - mean| + |(meanStd l).2 - sigma|] from rfl, e1] at hr
        simpa using hr.symm
      rw [this]
      exact e5.trans e7
    rw [hlaw] at hr2
    have hv0 : 0 < v := hgood.1
    have hw2 : 2 < w := by
      by_contra hc
      exact hno v w hv0 (not_lt.1 hc) hr2
    refine ⟨hv0, hw2, ?_⟩
    rw [hlib v w hv0 hw2] at hr2
    obtain ⟨q1, q2⟩ := Prod.ext_iff.1 hr2
    dsimp only at q1 q2
    have q3 : logLogisticVar v w = sigma ^ 2 := by
      have hpos : 0 < logLogisticVar v w := by
        by_contra hc
        rw [Real.sqrt_eq_zero_of_nonpos (not_lt.1 hc)] at q2
        linarith
      rw [← q2, Real.sq_sqrt hpos.le]
    rw [← q1, ← q3]
    exact loglogistic_law hv0 hw2

/-! ### LogitNormal -/

/-- **C138**: the documented density of LogitNormal has total mass one, and the mass up to `x` is that of a normal law up to
the logit of `x` -/
theorem logitnormal_law (mu : ℝ) {s : ℝ} (hs : 0 < s) :
    IsProbabilityMeasure (ofPdf (logitNormalTauPdf mu (1 / s ^ 2))) ∧
      ∀ x, 0 < x → x < 1 → (ofPdf (logitNormalTauPdf mu (1 / s ^ 2))).real (Iic x) =
        stdNormalCdf ((Real.log (x / (1 - x)) - mu) / s) := by
  refine ⟨LogitLaw.prob mu hs, fun x h0 h1 => ?_⟩
  rw [LogitLaw.law_eq mu hs, map_measureReal_apply continuous_sigmoid.measurable measurableSet_Iic]
  have e : Real.sigmoid ⁻¹' Iic x = Iic (Real.log (x / (1 - x))) := by
    ext z
    rw [mem_preimage, mem_Iic, mem_Iic]
    conv_lhs => rw [← LogitLaw.sigmoid_logit h0 h1]
    exact Real.sigmoid_le_iff
  rw [e]
  generalize Real.log (x / (1 - x)) = y
  have h1 := gaussianReal_map_const_mul (μ := 0) (v := 1) s
  have h2 := gaussianReal_map_const_add (μ := s * 0) (v := .mk (s ^ 2) (sq_nonneg s) * 1) mu
  rw [← h1, Measure.map_map (by fun_prop) (by fun_prop)] at h2
  have hv : (s ^ 2).toNNReal = .mk (s ^ 2) (sq_nonneg s) * 1 := by
    rw [mul_one]; exact Real.toNNReal_of_nonneg (sq_nonneg s)
  rw [hv, show mu = mu + s * 0 by ring]
  rw [show mu + s * 0 = s * 0 + mu by ring] at *
  rw [← h2, map_measureReal_apply (by fun_prop) measurableSet_Iic]
  have e2 : ((fun x => mu + x) ∘ fun x => s * x) ⁻¹' Iic y = Iic ((y - (s * 0 + mu)) / s) := by
    ext z
    simp only [mem_preimage, Function.comp, mem_Iic]
    rw [le_div_iff₀ hs]
    constructor <;> intro h <;> linarith
  rw [e2, stdNormalCdf, Measure.real, gaussianReal_apply_eq_integral _ one_ne_zero, ENNReal.toReal_ofReal]
  · refine setIntegral_congr_fun measurableSet_Iic fun z _ => ?_
    simp [gaussianPDFReal, normalPdf]
  · exact setIntegral_nonneg measurableSet_Iic fun z _ => gaussianPDFReal_nonneg _ _ _

/-- **C138**: half of the mass of a LogitNormal lies below the inverse logit of `mu` -/
theorem logitnormal_median (mu : ℝ) {s : ℝ} (hs : 0 < s) {m : ℝ} (h0 : 0 < m) (h1 : m < 1) :
    (ofPdf (logitNormalTauPdf mu (1 / s ^ 2))).real (Iic m) = 1 / 2 ↔ Real.log (m / (1 - m)) = mu := by
  rw [(logitnormal_law mu hs).2 m h0 h1, ← SkewLaw.Phi_zero, SkewLaw.Phi_mono.injective.eq_iff,
    div_eq_zero_iff, or_iff_left hs.ne', sub_eq_zero]

/-- **C138**: the moment fit of LogitNormal.  The value asked for as the mean becomes the median.  The mean is that value only
for 1/2; otherwise it lies strictly between 1/2 and that value.  The standard deviation is at most one and a half times the one
asked for. -/
theorem logitnormal_fit_partial (mean sigma : ℝ) (h0 : 0 < mean) (h1 : mean < 1) (hs : 0 < sigma) (o : Obj) :
    Gives (logitNormalMoments mean sigma o) fun r => ∃ mu s, law .logitNormal r = [some mu, some s] ∧ 0 < s ∧
      (ofPdf (logitNormalTauPdf mu (1 / s ^ 2))).real (Iic mean) = 1 / 2 ∧
      ∃ m v, HasMoments (ofPdf (logitNormalTauPdf mu (1 / s ^ 2))) m v ∧ √v ≤ 3 / 2 * sigma ∧
        (mean = 1 / 2 → m = mean) ∧ (1 / 2 < mean → 1 / 2 < m ∧ m < mean) ∧ (mean < 1 / 2 → mean < m ∧ m < 1 / 2) := by
  have h1' : 0 < 1 - mean := by linarith
  have hs6 : 0 < mean + sigma * 3 - (mean - sigma * 3) := by linarith
  refine ⟨_, rfl, Real.log (mean / (1 - mean)), mean + sigma * 3 - (mean - sigma * 3), ?_, hs6, ?_, ?_⟩
  · simp [law, lawAttrs, normalUpdate, Obj.setAll, Obj.set, Mle.logit]
    split_ifs <;> simp [Function.update]
  · exact (logitnormal_median _ hs6 h0 h1).2 rfl
  · have h6 : mean + sigma * 3 - (mean - sigma * 3) = 6 * sigma := by ring
    rw [h6] at hs6 ⊢
    set mu := Real.log (mean / (1 - mean)) with hmu
    have hsig : Real.sigmoid mu = mean := LogitLaw.sigmoid_logit h0 h1
    have hp := LogitLaw.prob mu hs6
    refine ⟨_, _, ⟨hp, LogitLaw.int_id mu hs6 continuous_id (C := 1) fun x hx => ?_, rfl,
      LogitLaw.int_id mu hs6 (f := fun x => (x - _) ^ 2) (by fun_prop) (C := (1 + |∫ x, x ∂ofPdf (logitNormalTauPdf mu (1 / (6 * sigma) ^ 2))|) ^ 2)
        fun x hx => ?_, rfl⟩, ?_, ?_, ?_, ?_⟩
    · simp only [abs_of_pos hx.1]
      exact hx.2.le
    · rw [abs_of_nonneg (sq_nonneg _), ← sq_abs]
      refine pow_le_pow_left₀ (abs_nonneg _) ?_ 2
      refine (abs_sub _ _).trans ?_
      rw [abs_of_pos hx.1]
      linarith [hx.2]
    · rw [Real.sqrt_le_left (by positivity)]
      refine (LogitLaw.var_le mu hs6 rfl).trans (le_of_eq ?_)
      ring
    · intro h
      have : mu = 0 := by rw [hmu, h]; norm_num
      rw [this, LogitLaw.mean_zero hs6, h]
    · intro h
      have hmu0 : 0 < mu := by
        rw [← Real.sigmoid_lt_iff, hsig, Real.sigmoid_zero]
        linarith
      have := LogitLaw.mean_pos hmu0 hs6
      rwa [hsig] at this
    · intro h
      have hmu0 : 0 < -mu := by
        rw [← Real.sigmoid_lt_iff, Real.sigmoid_neg, hsig, Real.sigmoid_zero]
        linarith
      have := LogitLaw.mean_pos hmu0 hs6
      rw [LogitLaw.mean_neg mu hs6, Real.sigmoid_neg, hsig] at this
      constructor <;> linarith [this.1, this.2]

/-- **C138** (negation): asked for the mean 3/4, the moment fit of LogitNormal gives another one -/
theorem logitnormal_fit_misses (sigma : ℝ) (hs : 0 < sigma) (o : Obj) :
    Gives (logitNormalMoments (3 / 4) sigma o) fun r => ∃ mu s, law .logitNormal r = [some mu, some s] ∧
      ∫ x, x ∂ofPdf (logitNormalTauPdf mu (1 / s ^ 2)) ≠ 3 / 4 := by
  obtain ⟨r, hr, mu, s, h1, -, -, m, v, hm, -, -, h2, -⟩ :=
    logitnormal_fit_partial (3 / 4) sigma (by norm_num) (by norm_num) hs o
  refine ⟨r, hr, mu, s, h1, ?_⟩
  rw [hm.mean]
  exact (h2 (by norm_num)).2.ne

/-! ### VonMises -/

/-- **C138**: the documented density of VonMises is a probability on the interval from `-π` to `π`; its mean direction is that of
`mu`, and the mean resultant length is the ratio of the Bessel functions, so that the documented variance is the circular
variance -/
theorem vonmises_law (mu k : ℝ) : IsProbabilityMeasure (vonMisesLaw mu k) ∧
    ∫ x, Real.cos x ∂vonMisesLaw mu k = besselI1 k / besselI0 k * Real.cos mu ∧
    ∫ x, Real.sin x ∂vonMisesLaw mu k = besselI1 k / besselI0 k * Real.sin mu ∧
    ∫ x, (1 - Real.cos (x - mu)) ∂vonMisesLaw mu k = 1 - besselI1 k / besselI0 k := by
  have hp := VMLaw.prob mu k
  refine ⟨hp, (VMLaw.direction mu k).1, (VMLaw.direction mu k).2, ?_⟩
  rw [integral_sub (integrable_const _) (VMLaw.integrable_law mu k (by fun_prop)), VMLaw.integral_law mu k fun x => Real.cos (x - mu),
    VMLaw.cos_centred]
  simp

/-- **C138** (negation): as a number on the line the mean of VonMises is `mu` only for `mu = 0`; it is nearer to zero, because
the mass beyond `π` is at the other end of the interval -/
theorem vonmises_line_mean (mu k : ℝ) (h1 : -Real.pi ≤ mu) (h2 : mu ≤ Real.pi) :
    (0 < mu → ∫ x, x ∂vonMisesLaw mu k < mu) ∧ (mu < 0 → mu < ∫ x, x ∂vonMisesLaw mu k) ∧
      (∫ x, x ∂vonMisesLaw mu k = mu ↔ mu = 0) := by
  have hp := Real.pi_pos
  have hi : ∀ a b, IntervalIntegrable (vonMisesPdf 0 k) volume a b := fun a b => (VMLaw.cont 0 k).intervalIntegrable a b
  have a : 0 < mu → ∫ x, x ∂vonMisesLaw mu k < mu := by
    intro h
    rw [VMLaw.mean_line]
    have := intervalIntegral.intervalIntegral_pos_of_pos (hi (Real.pi - mu) Real.pi) (VMLaw.pos 0 k) (by linarith)
    nlinarith
  have b : mu < 0 → mu < ∫ x, x ∂vonMisesLaw mu k := by
    intro h
    rw [VMLaw.mean_line, intervalIntegral.integral_symm]
    have := intervalIntegral.intervalIntegral_pos_of_pos (hi Real.pi (Real.pi - mu)) (VMLaw.pos 0 k) (by linarith)
    nlinarith
  refine ⟨a, b, fun h => ?_, fun h => ?_⟩
  · rcases lt_trichotomy mu 0 with h' | h' | h'
    · exact absurd h (b h').ne'
    · exact h'
    · exact absurd h (a h').ne
  · subst h
    rw [VMLaw.mean_line]
    simp

/-- **C138**: at `mu = π` the mean on the line is 0 -/
theorem vonmises_mean_pi (k : ℝ) : ∫ x, x ∂vonMisesLaw Real.pi k = 0 := by
  rw [VMLaw.integral_law]
  refine VMLaw.odd_zero fun x => ?_
  simp only [vonMisesPdf, Real.cos_sub_pi, Real.cos_neg, neg_mul]

/-- **C138**: the moment fit of VonMises starts at `mean` and `1 / sigma ^ 1.8` and, if a VonMises within the bounds has the mean
and standard deviation asked for in the sense of the library, ends with one that has -/
theorem vonmises_fit (opt : Optimiser) (meanStd : List (Option ℝ) → ℝ × ℝ) (mean sigma : ℝ) (o : Obj)
    (ho : construct (.simple .vonMises) (fun _ => none) = .ok o) (box : Box) (F : List ℝ → Except Err (List ℝ))
    (hF : IsObjective (.simple .vonMises) o.names o.attr (fun l => [ |(meanStd l).1 - mean| + |(meanStd l).2 - sigma|]) F)
    (hfind : Finds opt F [some mean, some (1 / sigma ^ (9 / 5 : ℝ))] (freeBounds o box))
    (d : Obj) (hd : Choice (.simple .vonMises) o (freeBounds o box) d)
    (h : meanStd (law (.simple .vonMises) d) = (mean, sigma)) :
    Gives (vonMisesMoments opt meanStd mean sigma box o) fun r => meanStd (law (.simple .vonMises) r.2) = (mean, sigma) := by
  obtain ⟨o1, ho1⟩ : ∃ o1, update (.simple .vonMises) (vonMisesStart mean sigma) o = .ok o1 := ⟨_, rfl⟩
  have hsc : ScaledNames (.simple .vonMises) o.names := by intro h; simp at h
  have key : o1.names = o.names ∧ startAt o o1 = [some mean, some (1 / sigma ^ (9 / 5 : ℝ))] := by
    simp [construct, parametrize, simpleParam, simpleFam, allNotNone, blank, Obj.setAll, Obj.set, Except.ok_bind',
      Except.pure_eq] at ho
    subst ho
    simp [update, simpleUpdate, simpleFam, Obj.setAll, Obj.set, vonMisesStart] at ho1
    subst ho1
    refine ⟨rfl, ?_⟩
    simp [startAt, getFixedParams, splitStep, Function.update, List.zipIdx]
    norm_num
  refine mean_sigma_exact opt _ meanStd mean sigma _ o o1 hsc box ho1 key.1 F hF ?_ d hd h
  rw [key.2]
  exact hfind

/-! The hypotheses are met. -/

/-- asked for the mean and the standard deviation of LogLogistic(1, 4), an optimiser that tries (1, 5) and stops at (1, 4) -/
example : ∃ (o o1 : Obj) (meanStd : List (Option ℝ) → ℝ × ℝ) (mean sigma : ℝ) (opt : Optimiser) (G : List ℝ → Except Err (List ℝ)),
    construct (.simple .logLogistic) (fun _ => none) = .ok o ∧ update (.simple .logLogistic) [1, 5] o = .ok o1 ∧
    2 * eps ≤ mean ∧ 0 < sigma ∧
    (∀ a b, 0 < a → 2 < b → meanStd [some a, some b] = (logLogisticMean a b, √(logLogisticVar a b))) ∧
    (∀ a b, 0 < a → b ≤ 2 → meanStd [some a, some b] ≠ (mean, sigma)) ∧
    IsObjective (.simple .logLogistic) o.names o.attr (fun l => [ |(meanStd l).1 - mean| + |(meanStd l).2 - sigma|]) G ∧
    Finds opt G (startAt o o1) (freeBounds o TwoFam.logLogistic.box) := by
  obtain ⟨o, ho⟩ : ∃ o, construct (.simple .logLogistic) (fun _ => none) = .ok o := ⟨_, rfl⟩
  obtain ⟨o1, ho1⟩ : ∃ o1, update (.simple .logLogistic) [1, 5] o = .ok o1 := ⟨_, rfl⟩
  have hbox := two_free .logLogistic o ho
  have hp := Real.pi_pos
  have he : eps < 1 / 2 := by unfold eps; norm_num
  have h4 : 0 < Real.pi / 4 := by positivity
  set ms : List (Option ℝ) → ℝ × ℝ := fun l =>
    if (2 : ℝ) < (l[1]?.join).getD (0 : ℝ) then (logLogisticMean ((l[0]?.join).getD 0) ((l[1]?.join).getD 0),
      √(logLogisticVar ((l[0]?.join).getD 0) ((l[1]?.join).getD 0))) else (0, 0) with hms
  have hs : 0 < Real.sin (Real.pi / 4) := Real.sin_pos_of_pos_of_lt_pi h4 (by linarith)
  have hmean : 1 < logLogisticMean 1 4 := by
    unfold logLogisticMean
    rw [one_mul, lt_div_iff₀ hs, one_mul]
    exact Real.sin_lt h4
  have hvar : 0 < logLogisticVar 1 4 := by
    unfold logLogisticVar
    rw [show 2 * (Real.pi / 4) = Real.pi / 2 by ring, Real.sin_pi_div_two, Real.sin_pi_div_four]
    have : √2 ^ 2 = (2 : ℝ) := Real.sq_sqrt (by norm_num)
    rw [div_pow √2, this]
    have := Real.pi_lt_d2
    nlinarith
  set mean := logLogisticMean 1 4 with hmd
  set sigma := √(logLogisticVar 1 4) with hsd
  have hsig : 0 < sigma := Real.sqrt_pos.2 hvar
  set res : List (Option ℝ) → List ℝ := fun l => [ |(ms l).1 - mean| + |(ms l).2 - sigma|] with hres
  set G : List ℝ → Except Err (List ℝ) := fun x => if x.length = 2 then
    .ok (res (x.map some)) else .error .valueError with hG
  have hin : InBox TwoFam.logLogistic.box [1, 4] := by
    refine ⟨rfl, fun i hi _ => ?_⟩
    simp only [List.length_cons, List.length_nil] at hi
    interval_cases i <;> simp [TwoFam.box]
    · exact_mod_cast (by linarith : eps ≤ 1)
    · exact_mod_cast (by linarith : eps ≤ 4)
  refine ⟨o, o1, ms, mean, sigma, fun _ _ => .ok (.ask [1, 5] fun _ => .stop [1, 4]), G, ho, ho1, by linarith, hsig, ?_, ?_, ⟨?_, ?_⟩, ?_⟩
  · intro a b _ hb
    simp [hms, hb]
  · intro a b _ hb h
    simp [hms, not_lt.2 hb] at h
    linarith [h.1]
  · intro cand kvs hk
    simp [construct, parametrize, simpleParam, simpleFam, allNotNone, blank, Obj.setAll, Obj.set] at ho
    subst ho
    obtain ⟨k1, k2, k3⟩ := hk
    match kvs, k1, k2, k3 with
    | [(a, m), (b, n)], k1, k2, k3 =>
      simp only [List.map_cons, List.map_nil, List.cons.injEq, and_true] at k1
      obtain ⟨rfl, rfl⟩ := k1
      simp [Function.update] at k3
      subst k3
      simp [hG, construct, parametrize, simpleParam, simpleFam, simpleUpdate, allNotNone, blank, Obj.setAll, Obj.set,
        List.lookup, Except.map, law, lawAttrs, Function.update, hres]
  · intro cand hc
    simp [construct, parametrize, simpleParam, simpleFam, allNotNone, blank, Obj.setAll, Obj.set] at ho
    subst ho
    simp [Function.update] at hc
    simp [hG, hc]
  · rw [hbox]
    have hzero : res [some 1, some 4] = [0] := by
      have h24 : (2 : ℝ) < 4 := by norm_num
      simp [hres, hms, h24, ← hmd, ← hsd]
    refine ⟨_, rfl, [1, 4], [0], by simp [answer, hG], hin, ?_, ?_⟩
    · rw [← hzero]; simp [hG]
    · intro y _ r' _
      have : 0 ≤ cost r' := List.sum_nonneg (by
        intro a ha
        obtain ⟨b, -, rfl⟩ := List.mem_map.1 ha
        positivity)
      simpa [cost] using this

/-- the moment fit of an unset LogitNormal for the mean 0.8 and standard deviation 0.1: `mu` is `log 4` and `sigma` 0.6 -/
example : Gives (logitNormalMoments (4 / 5) (1 / 10) blank) fun r => law .logitNormal r = [some (Real.log 4), some (3 / 5)] := by
  refine ⟨_, rfl, ?_⟩
  simp [law, lawAttrs, normalUpdate, Obj.setAll, Obj.set, Mle.logit, blank]
  norm_num

/-- VonMises(1, 2): the mean on the line is less than 1 -/
example : ∫ x, x ∂vonMisesLaw 1 2 < 1 :=
  (vonmises_line_mean 1 2 (by linarith [Real.pi_gt_three]) (by linarith [Real.pi_gt_three])).1 one_pos

end Verif.Props
