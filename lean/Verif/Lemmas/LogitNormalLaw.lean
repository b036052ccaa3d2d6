import Verif.Spec.MoreLaws
import Mathlib.Analysis.SpecialFunctions.Sigmoid
import Mathlib.MeasureTheory.Function.JacobianOneDim
import Mathlib.Probability.Distributions.Gaussian.Real
import Mathlib.Probability.Moments.Variance
import Mathlib.Tactic

/-!
# The logit-normal law is that of the inverse logit of a normal variable (C138)
-/

namespace Verif.LogitLaw
open MeasureTheory ProbabilityTheory Set Verif.Spec

theorem logit_sigmoid (x : ℝ) : Real.log (Real.sigmoid x / (1 - Real.sigmoid x)) = x := by
  rw [← Real.sigmoid_neg, ← Real.sigmoid_mul_rexp_neg, div_mul_cancel_left₀ (Real.sigmoid_pos x).ne', ← Real.exp_neg, neg_neg,
    Real.log_exp]

theorem sigmoid_logit {y : ℝ} (h0 : 0 < y) (h1 : y < 1) : Real.sigmoid (Real.log (y / (1 - y))) = y := by
  have h2 : 0 < 1 - y := by linarith
  rw [Real.sigmoid_def, Real.exp_neg, Real.exp_log (by positivity)]
  field_simp
  ring

theorem law_eq (mu : ℝ) {s : ℝ} (hs : 0 < s) :
    ofPdf (logitNormalTauPdf mu (1 / s ^ 2)) = (gaussianReal mu (s ^ 2).toNNReal).map Real.sigmoid := by
  have hv : (s ^ 2).toNNReal ≠ 0 := by
    simp only [ne_eq, Real.toNNReal_eq_zero, not_le]; positivity
  have hm : Measurable Real.sigmoid := continuous_sigmoid.measurable
  ext A hA
  rw [Measure.map_apply hm hA, gaussianReal_apply _ hv, ofPdf, withDensity_apply _ hA]
  have hB : MeasurableSet (Real.sigmoid ⁻¹' A) := hm hA
  have h := lintegral_image_eq_lintegral_abs_deriv_mul hB
    (fun x _ => (Real.hasDerivAt_sigmoid x).hasDerivWithinAt) (Real.sigmoid_injective.injOn)
    (fun x => ENNReal.ofReal (logitNormalTauPdf mu (1 / s ^ 2) x))
  have e1 : ∫⁻ x in A, ENNReal.ofReal (logitNormalTauPdf mu (1 / s ^ 2) x) =
      ∫⁻ x in Real.sigmoid '' (Real.sigmoid ⁻¹' A), ENNReal.ofReal (logitNormalTauPdf mu (1 / s ^ 2) x) := by
    rw [image_preimage_eq_inter_range, Real.range_sigmoid]
    rw [← lintegral_indicator hA, ← lintegral_indicator (hA.inter measurableSet_Ioo)]
    congr 1
    funext x
    by_cases hx : 0 < x ∧ x < 1
    · by_cases hxA : x ∈ A <;> simp [indicator, hxA, hx]
    · have hz : logitNormalTauPdf mu (1 / s ^ 2) x = 0 := by rw [logitNormalTauPdf, if_neg hx]
      simp only [indicator, hz, ENNReal.ofReal_zero, ite_self]
  rw [e1, h]
  refine setLIntegral_congr_fun hB fun x _ => ?_
  have hp := Real.sigmoid_pos x
  have hq : 0 < 1 - Real.sigmoid x := by linarith [Real.sigmoid_lt_one x]
  rw [logitNormalTauPdf, if_pos ⟨hp, Real.sigmoid_lt_one x⟩, logit_sigmoid, gaussianPDF, ← ENNReal.ofReal_mul (abs_nonneg _),
    abs_of_pos (by positivity), gaussianPDFReal]
  congr 1
  rw [Real.coe_toNNReal _ (by positivity), show 1 / s ^ 2 / (2 * Real.pi) = (2 * Real.pi * s ^ 2)⁻¹ by field_simp, Real.sqrt_inv]
  rw [show -(1 / s ^ 2 / 2) * (x - mu) ^ 2 = -(x - mu) ^ 2 / (2 * s ^ 2) by field_simp]
  field_simp

/-- expectations under the law as expectations of a centred normal variable -/
theorem integral_eq (mu : ℝ) {s : ℝ} (hs : 0 < s) {f : ℝ → ℝ} (hf : Continuous f) :
    ∫ x, f x ∂ofPdf (logitNormalTauPdf mu (1 / s ^ 2)) =
      ∫ z, f (Real.sigmoid (mu + z)) ∂gaussianReal 0 (s ^ 2).toNNReal := by
  rw [law_eq mu hs, integral_map continuous_sigmoid.aemeasurable hf.aestronglyMeasurable]
  have := gaussianReal_map_const_add (μ := 0) (v := (s ^ 2).toNNReal) mu
  rw [zero_add] at this
  rw [← this, integral_map (f := fun x => f (Real.sigmoid x)) (by fun_prop) (hf.comp continuous_sigmoid).aestronglyMeasurable]

theorem prob (mu : ℝ) {s : ℝ} (hs : 0 < s) : IsProbabilityMeasure (ofPdf (logitNormalTauPdf mu (1 / s ^ 2))) := by
  rw [law_eq mu hs]
  exact Measure.isProbabilityMeasure_map continuous_sigmoid.aemeasurable

theorem int_sigmoid (m : ℝ) (v : NNReal) (c d : ℝ) :
    Integrable (fun z => Real.sigmoid (m + c * z) - d) (gaussianReal 0 v) := by
  refine Integrable.sub ?_ (integrable_const _)
  refine Integrable.of_bound (C := 1) ?_ (ae_of_all _ fun z => ?_)
  · exact (continuous_sigmoid.comp (by fun_prop : Continuous fun z => m + c * z)).aestronglyMeasurable
  · rw [Real.norm_of_nonneg (Real.sigmoid_nonneg _)]
    exact Real.sigmoid_le_one _

/-- the mean of two points at the same distance from `m` on the logit scale -/
theorem pair_bounds {m t : ℝ} (hm : 0 < m) (ht : t ≠ 0) :
    1 < Real.sigmoid (m + t) + Real.sigmoid (m - t) ∧
      Real.sigmoid (m + t) + Real.sigmoid (m - t) < 2 * Real.sigmoid m := by
  have hA : 1 < Real.exp m := Real.one_lt_exp_iff.2 hm
  set A := Real.exp m
  set T := Real.exp t with hT
  have hT0 : 0 < T := Real.exp_pos t
  have hT1 : T ≠ 1 := by rwa [hT, ne_eq, Real.exp_eq_one_iff]
  have hA0 : 0 < A := by linarith
  have e : ∀ x, Real.sigmoid x = Real.exp x / (1 + Real.exp x) := by
    intro x
    have := Real.exp_pos x
    rw [Real.sigmoid_def, Real.exp_neg]
    field_simp
    ring
  have e1 : Real.sigmoid (m + t) = A * T / (1 + A * T) := by rw [e, Real.exp_add]
  have e2 : Real.sigmoid (m - t) = A / (T + A) := by
    rw [e, Real.exp_sub, div_eq_div_iff (by positivity) (by positivity)]
    change A / T * (T + A) = A * (1 + A / T)
    field_simp
  have e3 : Real.sigmoid m = A / (1 + A) := e m
  have hq : 0 < (T - 1) ^ 2 := by
    have : T - 1 ≠ 0 := sub_ne_zero.2 hT1
    positivity
  rw [e1, e2, e3]
  constructor
  · rw [div_add_div _ _ (by positivity) (by positivity), lt_div_iff₀ (by positivity)]
    nlinarith [mul_pos hT0 (mul_pos (sub_pos.2 hA) (by linarith : 0 < A + 1))]
  · rw [div_add_div _ _ (by positivity) (by positivity), mul_div_assoc', div_lt_div_iff₀ (by positivity) (by positivity)]
    nlinarith [mul_pos hA0 (mul_pos (sub_pos.2 hA) hq)]

theorem mean_sym (mu : ℝ) (v : NNReal) : ∫ z, Real.sigmoid (mu + z) ∂gaussianReal 0 v =
    ∫ z, Real.sigmoid (mu - z) ∂gaussianReal 0 v := by
  have h := gaussianReal_map_neg (μ := 0) (v := v)
  rw [neg_zero] at h
  conv_lhs => rw [← h]
  rw [integral_map (f := fun z => Real.sigmoid (mu + z)) (by fun_prop)
    (continuous_sigmoid.comp (by fun_prop : Continuous fun z => mu + z)).aestronglyMeasurable]
  simp [sub_eq_add_neg]

private theorem strict {v : NNReal} (hv : v ≠ 0) {f : ℝ → ℝ} (hi : Integrable f (gaussianReal 0 v))
    (hp : ∀ z, z ≠ 0 → 0 < f z) (h0 : 0 ≤ f 0) : 0 < ∫ z, f z ∂gaussianReal 0 v := by
  have := nullSingletonClass_gaussianReal (μ := 0) hv
  have hn : ∀ z, 0 ≤ f z := fun z => by
    by_cases h : z = 0
    · rw [h]; exact h0
    · exact (hp z h).le
  rw [integral_pos_iff_support_of_nonneg hn hi]
  have hsub : {(0 : ℝ)}ᶜ ⊆ Function.support f := fun z hz => (hp z hz).ne'
  refine lt_of_lt_of_le ?_ (measure_mono hsub)
  rw [measure_compl (measurableSet_singleton _) (measure_ne_top _ _), measure_singleton, measure_univ]
  simp

theorem mean_pos {mu : ℝ} (hmu : 0 < mu) {s : ℝ} (hs : 0 < s) :
    1 / 2 < ∫ x, x ∂ofPdf (logitNormalTauPdf mu (1 / s ^ 2)) ∧
      ∫ x, x ∂ofPdf (logitNormalTauPdf mu (1 / s ^ 2)) < Real.sigmoid mu := by
  have hv : (s ^ 2).toNNReal ≠ 0 := by
    simp only [ne_eq, Real.toNNReal_eq_zero, not_le]; positivity
  rw [integral_eq mu hs (f := fun x => x) continuous_id]
  set v := (s ^ 2).toNNReal
  have i1 : Integrable (fun z => Real.sigmoid (mu + z)) (gaussianReal 0 v) := by
    simpa using int_sigmoid mu v 1 0
  have i2 : Integrable (fun z => Real.sigmoid (mu - z)) (gaussianReal 0 v) := by
    simpa [sub_eq_add_neg] using int_sigmoid mu v (-1) 0
  have hsum : ∫ z, (Real.sigmoid (mu + z) + Real.sigmoid (mu - z)) ∂gaussianReal 0 v =
      2 * ∫ z, Real.sigmoid (mu + z) ∂gaussianReal 0 v := by
    rw [integral_add i1 i2, ← mean_sym]; ring
  have a := strict hv (f := fun z => Real.sigmoid (mu + z) + Real.sigmoid (mu - z) - 1) ((i1.add i2).sub (integrable_const _))
    (fun z hz => by linarith [(pair_bounds hmu hz).1]) (by
      have := Real.sigmoid_lt hmu
      rw [Real.sigmoid_zero] at this
      simp only [add_zero, sub_zero]; linarith)
  have b := strict hv (f := fun z => 2 * Real.sigmoid mu - (Real.sigmoid (mu + z) + Real.sigmoid (mu - z)))
    ((integrable_const _).sub (i1.add i2))
    (fun z hz => by linarith [(pair_bounds hmu hz).2]) (by simp only [add_zero, sub_zero]; linarith)
  rw [integral_sub (by exact i1.add i2) (integrable_const _), hsum] at a
  rw [integral_sub (integrable_const _) (by exact i1.add i2), hsum] at b
  simp only [integral_const, probReal_univ, smul_eq_mul, one_mul] at a b
  constructor <;> linarith

/-- the mirror image in `1/2` -/
theorem mean_neg (mu : ℝ) {s : ℝ} (hs : 0 < s) :
    ∫ x, x ∂ofPdf (logitNormalTauPdf (-mu) (1 / s ^ 2)) = 1 - ∫ x, x ∂ofPdf (logitNormalTauPdf mu (1 / s ^ 2)) := by
  rw [integral_eq (-mu) hs (f := fun x => x) continuous_id, integral_eq mu hs (f := fun x => x) continuous_id]
  set v := (s ^ 2).toNNReal
  have i1 : Integrable (fun z => Real.sigmoid (mu - z)) (gaussianReal 0 v) := by
    simpa [sub_eq_add_neg] using int_sigmoid mu v (-1) 0
  have e : ∀ z, Real.sigmoid (-mu + z) = 1 - Real.sigmoid (mu - z) := fun z => by
    rw [← Real.sigmoid_neg]; congr 1; ring
  simp only [e]
  rw [integral_sub (integrable_const _) i1, mean_sym mu]
  simp

theorem mean_zero {s : ℝ} (hs : 0 < s) : ∫ x, x ∂ofPdf (logitNormalTauPdf 0 (1 / s ^ 2)) = 1 / 2 := by
  have := mean_neg 0 hs
  rw [neg_zero] at this
  linarith

/-! ## spread -/

theorem sigmoid_slope (x y : ℝ) : |Real.sigmoid x - Real.sigmoid y| ≤ 1 / 4 * |x - y| := by
  have h := Convex.norm_image_sub_le_of_norm_hasDerivWithin_le (f := Real.sigmoid)
    (f' := fun x => Real.sigmoid x * (1 - Real.sigmoid x)) (s := univ) (C := 1 / 4) (x := y) (y := x)
    (fun x _ => (Real.hasDerivAt_sigmoid x).hasDerivWithinAt) (fun x _ => ?_) convex_univ (mem_univ _) (mem_univ _)
  · simpa [Real.norm_eq_abs] using h
  · rw [Real.norm_of_nonneg (mul_nonneg (Real.sigmoid_nonneg x) (by linarith [Real.sigmoid_le_one x]))]
    nlinarith [sq_nonneg (Real.sigmoid x - 1 / 2)]

theorem int_id (mu : ℝ) {s : ℝ} (hs : 0 < s) {f : ℝ → ℝ} (hf : Continuous f) {C : ℝ} (hC : ∀ x ∈ Ioo (0 : ℝ) 1, |f x| ≤ C) :
    Integrable f (ofPdf (logitNormalTauPdf mu (1 / s ^ 2))) := by
  rw [law_eq mu hs, integrable_map_measure hf.aestronglyMeasurable continuous_sigmoid.aemeasurable]
  refine Integrable.of_bound (C := C) (hf.comp continuous_sigmoid).aestronglyMeasurable (ae_of_all _ fun z => ?_)
  exact hC _ ⟨Real.sigmoid_pos _, Real.sigmoid_lt_one _⟩

theorem var_le (mu : ℝ) {s : ℝ} (hs : 0 < s) {m : ℝ} (hm : m = ∫ x, x ∂ofPdf (logitNormalTauPdf mu (1 / s ^ 2))) :
    ∫ x, (x - m) ^ 2 ∂ofPdf (logitNormalTauPdf mu (1 / s ^ 2)) ≤ (s / 4) ^ 2 := by
  have := prob mu hs
  set P := ofPdf (logitNormalTauPdf mu (1 / s ^ 2)) with hP
  have i1 : Integrable (fun x : ℝ => x) P := int_id mu hs continuous_id (C := 1) fun x hx => by
    simp only [abs_of_pos hx.1]; exact hx.2.le
  have i2 : Integrable (fun x : ℝ => x ^ 2) P := int_id mu hs (by fun_prop) (C := 1) fun x hx => by
    rw [abs_of_nonneg (sq_nonneg x)]
    nlinarith [hx.1, hx.2]
  have expand : ∀ d : ℝ, ∫ x, (x - d) ^ 2 ∂P = (∫ x, x ^ 2 ∂P) - 2 * d * m + d ^ 2 := by
    intro d
    have e : ∀ x : ℝ, (x - d) ^ 2 = x ^ 2 - 2 * d * x + d ^ 2 := fun x => by ring
    simp only [e]
    rw [integral_add (by exact i2.sub (i1.const_mul _)) (integrable_const _), integral_sub i2 (i1.const_mul _), integral_const_mul, ← hm]
    simp
  have h1 : ∫ x, (x - m) ^ 2 ∂P ≤ ∫ x, (x - Real.sigmoid mu) ^ 2 ∂P := by
    rw [expand, expand]
    nlinarith [sq_nonneg (m - Real.sigmoid mu)]
  refine h1.trans ?_
  rw [hP, integral_eq mu hs (by fun_prop)]
  have hz : Integrable (fun z : ℝ => z ^ 2) (gaussianReal 0 (s ^ 2).toNNReal) :=
    (memLp_id_gaussianReal (μ := 0) (v := (s ^ 2).toNNReal) 2).integrable_sq
  have hz2 : ∫ z, z ^ 2 ∂gaussianReal 0 (s ^ 2).toNNReal = s ^ 2 := by
    have hvar := variance_id_gaussianReal (μ := 0) (v := (s ^ 2).toNNReal)
    rw [variance_eq_integral (by fun_prop)] at hvar
    simp only [id, integral_id_gaussianReal, sub_zero, Real.coe_toNNReal _ (sq_nonneg s)] at hvar
    exact hvar
  have h2 : ∫ z, (Real.sigmoid (mu + z) - Real.sigmoid mu) ^ 2 ∂gaussianReal 0 (s ^ 2).toNNReal ≤
      ∫ z, 1 / 16 * z ^ 2 ∂gaussianReal 0 (s ^ 2).toNNReal := by
    refine integral_mono_of_nonneg (ae_of_all _ fun z => sq_nonneg _) (hz.const_mul _) (ae_of_all _ fun z => ?_)
    have := sigmoid_slope (mu + z) mu
    rw [add_sub_cancel_left] at this
    have h4 := pow_le_pow_left₀ (abs_nonneg _) this 2
    rw [mul_pow, sq_abs, sq_abs] at h4
    simp only
    linarith
  refine h2.trans (le_of_eq ?_)
  rw [integral_const_mul, hz2]
  ring

end Verif.LogitLaw
