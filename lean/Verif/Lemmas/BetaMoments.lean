import Mathlib.Probability.Distributions.Beta
import Mathlib.Probability.Moments.Variance
import Mathlib.Tactic

/-!
# Mean and variance of the beta law
-/

namespace Verif.BetaMoments
open MeasureTheory ProbabilityTheory

theorem pdf_mul (a b : ℝ) (ha : 0 < a) (hb : 0 < b) (x : ℝ) :
    betaPDFReal a b x * x = a / (a + b) * betaPDFReal (a + 1) b x := by
  unfold betaPDFReal
  by_cases h : 0 < x ∧ x < 1
  · simp only [h, and_self, if_true]
    have e1 : beta (a + 1) b = a / (a + b) * beta a b := by
      unfold beta
      rw [Real.Gamma_add_one ha.ne', show a + 1 + b = a + b + 1 by ring, Real.Gamma_add_one (by positivity)]
      have : Real.Gamma (a + b) ≠ 0 := (Real.Gamma_pos_of_pos (by positivity)).ne'
      field_simp
    have e2 : x ^ (a + 1 - 1) = x ^ (a - 1) * x := by
      rw [show a + 1 - 1 = a - 1 + 1 by ring, Real.rpow_add_one h.1.ne']
    have hB := (beta_pos ha hb).ne'
    rw [e1, e2]
    field_simp
  · simp [h]

theorem pdf_nonneg (a b : ℝ) (ha : 0 < a) (hb : 0 < b) (x : ℝ) : 0 ≤ betaPDFReal a b x := by
  by_cases h : 0 < x ∧ x < 1
  · exact (betaPDFReal_pos h.1 h.2 ha hb).le
  · simp [betaPDFReal, h]

theorem integral_beta (a b : ℝ) (ha : 0 < a) (hb : 0 < b) (f : ℝ → ℝ) :
    ∫ x, f x ∂betaMeasure a b = ∫ x, betaPDFReal a b x * f x := by
  have hm : Measurable (betaPDF a b) := (measurable_betaPDFReal a b).ennreal_ofReal
  rw [betaMeasure, integral_withDensity_eq_integral_toReal_smul hm
    (Filter.Eventually.of_forall fun x => ENNReal.ofReal_lt_top)]
  refine integral_congr_ae (Filter.Eventually.of_forall fun x => ?_)
  simp only [betaPDF, smul_eq_mul, ENNReal.toReal_ofReal (pdf_nonneg a b ha hb x)]

theorem integral_pdf (a b : ℝ) (ha : 0 < a) (hb : 0 < b) : ∫ x, betaPDFReal a b x = 1 := by
  have := isProbabilityMeasureBeta ha hb
  have h := integral_beta a b ha hb fun _ => 1
  simpa using h.symm

theorem mean (a b : ℝ) (ha : 0 < a) (hb : 0 < b) : ∫ x, x ∂betaMeasure a b = a / (a + b) := by
  rw [integral_beta a b ha hb]
  simp only [pdf_mul a b ha hb, integral_const_mul, integral_pdf (a + 1) b (by positivity) hb, mul_one]

theorem second (a b : ℝ) (ha : 0 < a) (hb : 0 < b) :
    ∫ x, x ^ 2 ∂betaMeasure a b = a / (a + b) * ((a + 1) / (a + 1 + b)) := by
  rw [integral_beta a b ha hb]
  have : ∀ x : ℝ, betaPDFReal a b x * x ^ 2 = a / (a + b) * ((a + 1) / (a + 1 + b) * betaPDFReal (a + 1 + 1) b x) := by
    intro x
    rw [sq, ← mul_assoc, pdf_mul a b ha hb, mul_assoc, pdf_mul (a + 1) b (by positivity) hb]
  simp only [this, integral_const_mul, integral_pdf (a + 1 + 1) b (by positivity) hb, mul_one]

theorem ae_unit (a b : ℝ) : ∀ᵐ x ∂betaMeasure a b, x ∈ Set.Icc (0 : ℝ) 1 := by
  have hm : Measurable (betaPDF a b) := (measurable_betaPDFReal a b).ennreal_ofReal
  rw [betaMeasure, ae_withDensity_iff hm]
  refine Filter.Eventually.of_forall fun x hx => ?_
  by_contra h
  apply hx
  rw [Set.mem_Icc, not_and_or, not_le, not_le] at h
  rcases h with h | h
  · exact betaPDF_eq_zero_of_nonpos h.le
  · exact betaPDF_eq_zero_of_one_le h.le

theorem memLp (a b : ℝ) (ha : 0 < a) (hb : 0 < b) : MemLp (fun x : ℝ => x) 2 (betaMeasure a b) := by
  have := isProbabilityMeasureBeta ha hb
  refine MemLp.of_bound (by fun_prop) 1 ?_
  filter_upwards [ae_unit a b] with x hx
  rw [Real.norm_eq_abs, abs_le]
  exact ⟨by linarith [hx.1], hx.2⟩

theorem variance (a b : ℝ) (ha : 0 < a) (hb : 0 < b) :
    Var[fun x => x; betaMeasure a b] = a * b / ((a + b) ^ 2 * (a + b + 1)) := by
  have := isProbabilityMeasureBeta ha hb
  rw [variance_eq_sub (memLp a b ha hb)]
  have h1 := second a b ha hb
  have h2 := mean a b ha hb
  simp only [Pi.pow_apply]
  rw [h1, h2]
  field_simp
  ring

end Verif.BetaMoments
