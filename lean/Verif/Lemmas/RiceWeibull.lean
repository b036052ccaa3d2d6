import Verif.Spec.RiceWeibull
import Mathlib.Probability.Moments.Variance
import Mathlib.Tactic

namespace Verif.Spec
open MeasureTheory ProbabilityTheory

private noncomputable abbrev G (m s : ℝ) : Measure ℝ := gaussianReal m (Real.toNNReal (s ^ 2))

theorem dist_meas : Measurable fun p : ℝ × ℝ => Real.sqrt (p.1 ^ 2 + p.2 ^ 2) := by fun_prop

instance riceLaw_prob (nu sigma : ℝ) : IsProbabilityMeasure (riceLaw nu sigma) :=
  Measure.isProbabilityMeasure_map dist_meas.aemeasurable

/-- all powers of a normal variable are integrable; here the square -/
theorem normal_sq_integrable (m s : ℝ) : Integrable (fun x : ℝ => x ^ 2) (G m s) := by
  have := (memLp_id_gaussianReal (μ := m) (v := Real.toNNReal (s ^ 2)) 2).integrable_sq
  simpa using this

theorem normal_sq (m s : ℝ) : ∫ x, x ^ 2 ∂(G m s) = m ^ 2 + s ^ 2 := by
  have hv := variance_fun_id_gaussianReal (μ := m) (v := Real.toNNReal (s ^ 2))
  have hm := memLp_id_gaussianReal (μ := m) (v := Real.toNNReal (s ^ 2)) 2
  have := variance_eq_sub (X := fun x : ℝ => x) (μ := G m s) hm
  rw [hv] at this
  simp only [Pi.pow_apply, integral_id_gaussianReal, Real.coe_toNNReal _ (sq_nonneg s)] at this
  linarith

theorem dist_sq_integrable (nu sigma : ℝ) :
    Integrable (fun p : ℝ × ℝ => p.1 ^ 2 + p.2 ^ 2) ((G nu sigma).prod (G 0 sigma)) := by
  refine Integrable.add ?_ ?_
  · exact (normal_sq_integrable nu sigma).comp_fst _
  · exact (normal_sq_integrable 0 sigma).comp_snd _

/-- second moment of the Rice law -/
theorem rice_second (nu sigma : ℝ) : ∫ x, x ^ 2 ∂(riceLaw nu sigma) = nu ^ 2 + 2 * sigma ^ 2 := by
  unfold riceLaw
  rw [integral_map dist_meas.aemeasurable (by fun_prop)]
  have : ∀ p : ℝ × ℝ, Real.sqrt (p.1 ^ 2 + p.2 ^ 2) ^ 2 = p.1 ^ 2 + p.2 ^ 2 := fun p =>
    Real.sq_sqrt (by positivity)
  simp only [this]
  rw [integral_add ((normal_sq_integrable nu sigma).comp_fst _)
    ((normal_sq_integrable 0 sigma).comp_snd _)]
  rw [integral_fun_fst (fun x : ℝ => x ^ 2), integral_fun_snd (fun x : ℝ => x ^ 2)]
  simp only [probReal_univ, one_smul, normal_sq]
  ring

theorem rice_memLp (nu sigma : ℝ) : MemLp (fun x : ℝ => x) 2 (riceLaw nu sigma) := by
  unfold riceLaw
  rw [memLp_map_measure_iff (by fun_prop) dist_meas.aemeasurable]
  rw [memLp_two_iff_integrable_sq (by
    exact dist_meas.aestronglyMeasurable)]
  have : ∀ p : ℝ × ℝ, Real.sqrt (p.1 ^ 2 + p.2 ^ 2) ^ 2 = p.1 ^ 2 + p.2 ^ 2 := fun p =>
    Real.sq_sqrt (by positivity)
  simp only [Function.comp_def, this]
  exact dist_sq_integrable nu sigma

theorem rice_var (nu sigma : ℝ) :
    central (riceLaw nu sigma) 2 = nu ^ 2 + 2 * sigma ^ 2 - mean (riceLaw nu sigma) ^ 2 := by
  have h := variance_eq_sub (rice_memLp nu sigma)
  rw [variance_eq_integral (by fun_prop)] at h
  simp only [Pi.pow_apply, rice_second] at h
  exact h

theorem rice_mean_nonneg (nu sigma : ℝ) : 0 ≤ mean (riceLaw nu sigma) := by
  unfold mean riceLaw
  rw [integral_map dist_meas.aemeasurable (by fun_prop)]
  exact integral_nonneg fun p => Real.sqrt_nonneg _

theorem rice_mean_ge (nu sigma : ℝ) : nu ≤ mean (riceLaw nu sigma) := by
  unfold mean riceLaw
  rw [integral_map dist_meas.aemeasurable (by fun_prop)]
  have h1 : ∫ p : ℝ × ℝ, p.1 ∂((G nu sigma).prod (G 0 sigma)) = nu := by
    rw [integral_fun_fst (fun x : ℝ => x)]
    simp [integral_id_gaussianReal]
  refine h1.symm.le.trans ?_
  apply integral_mono
  · have := (memLp_id_gaussianReal (μ := nu) (v := Real.toNNReal (sigma ^ 2)) 1).integrable (le_refl _)
    exact Integrable.comp_fst this _
  · have := (rice_memLp nu sigma).integrable (by norm_num)
    unfold riceLaw at this
    exact (integrable_map_measure (by fun_prop) dist_meas.aemeasurable).1 this
  · intro p
    exact Real.le_sqrt_of_sq_le (by nlinarith [sq_nonneg p.2])

/-- scaling -/
theorem rice_mean_scale (nu sigma : ℝ) (h : 0 < sigma) :
    mean (riceLaw nu sigma) = sigma * mean (riceLaw (nu / sigma) 1) := by
  have e1 : G nu sigma = (G (nu / sigma) 1).map (sigma * ·) := by
    rw [gaussianReal_map_const_mul]
    have a : sigma * (nu / sigma) = nu := by field_simp
    have b : (NNReal.mk (sigma ^ 2) (sq_nonneg _)) * Real.toNNReal (1 ^ 2) = Real.toNNReal (sigma ^ 2) := by
      ext
      simp [Real.coe_toNNReal _ (sq_nonneg sigma)]
    rw [a, b]
  have e2 : G 0 sigma = (G 0 1).map (sigma * ·) := by
    rw [gaussianReal_map_const_mul]
    have b : (NNReal.mk (sigma ^ 2) (sq_nonneg _)) * Real.toNNReal (1 ^ 2) = Real.toNNReal (sigma ^ 2) := by
      ext
      simp [Real.coe_toNNReal _ (sq_nonneg sigma)]
    rw [mul_zero, b]
  unfold mean
  have : riceLaw nu sigma = (riceLaw (nu / sigma) 1).map (sigma * ·) := by
    unfold riceLaw
    change Measure.map _ ((G nu sigma).prod (G 0 sigma)) = Measure.map _ (Measure.map _ ((G (nu / sigma) 1).prod (G 0 1)))
    rw [e1, e2, Measure.map_prod_map _ _ (by fun_prop) (by fun_prop),
      Measure.map_map dist_meas (by fun_prop), Measure.map_map (by fun_prop) dist_meas]
    congr 1
    funext p
    simp only [Function.comp_apply, Prod.map]
    rw [show (sigma * p.1) ^ 2 + (sigma * p.2) ^ 2 = sigma ^ 2 * (p.1 ^ 2 + p.2 ^ 2) by ring,
      Real.sqrt_mul (sq_nonneg _), Real.sqrt_sq h.le]
  rw [this, integral_map (by fun_prop) (by fun_prop), integral_const_mul]

end Verif.Spec

namespace Verif.Spec
open MeasureTheory ProbabilityTheory

private theorem normal_two (m s : ℝ) (hs : 0 < s) (k : ℝ) :
    gaussianReal m (Real.toNNReal (s ^ 2)) {x : ℝ | x ^ 2 = k} = 0 := by
  have hv : Real.toNNReal (s ^ 2) ≠ 0 := by
    simp only [ne_eq, Real.toNNReal_eq_zero, not_le]; positivity
  have := nullSingletonClass_gaussianReal (μ := m) hv
  have hsub : {x : ℝ | x ^ 2 = k} ⊆ {Real.sqrt k, -Real.sqrt k} := by
    intro x hx
    simp only [Set.mem_ofPred_eq] at hx
    have : Real.sqrt k = |x| := by rw [← hx, Real.sqrt_sq_eq_abs]
    simp only [Set.mem_insert_iff, Set.mem_singleton_iff, this]
    rcases abs_choice x with h | h <;> rw [h] <;> simp
  have hfin : ({Real.sqrt k, -Real.sqrt k} : Set ℝ).Finite := by simp
  exact measure_mono_null hsub (hfin.measure_zero _)

/-- a Rice law is not a point mass -/
theorem rice_var_pos (nu sigma : ℝ) (hs : 0 < sigma) : 0 < central (riceLaw nu sigma) 2 := by
  have h0 : 0 ≤ central (riceLaw nu sigma) 2 := by
    unfold central
    exact integral_nonneg fun x => by positivity
  rcases h0.lt_or_eq with h | h
  · exact h
  exfalso
  have hint : Integrable (fun x : ℝ => (x - ∫ x, x ∂(riceLaw nu sigma)) ^ 2) (riceLaw nu sigma) :=
    ((rice_memLp nu sigma).sub (memLp_const _)).integrable_sq
  have hz := (integral_eq_zero_iff_of_nonneg (fun x => by positivity) hint).1 h.symm
  unfold riceLaw at hz
  have hz2 := ae_of_ae_map dist_meas.aemeasurable hz
  have hz3 := Measure.ae_ae_of_ae_prod hz2
  obtain ⟨x, hx⟩ := hz3.exists
  set c := ∫ x, x ∂(riceLaw nu sigma) with hc
  have hall : ∀ᵐ y ∂(gaussianReal 0 (Real.toNNReal (sigma ^ 2))), y ∈ {y : ℝ | y ^ 2 = c ^ 2 - x ^ 2} := by
    filter_upwards [hx] with y hy
    have hy0 : (Real.sqrt (x ^ 2 + y ^ 2) - c) ^ 2 = 0 := hy
    have hy' : Real.sqrt (x ^ 2 + y ^ 2) = c := by
      have := pow_eq_zero_iff (two_ne_zero) |>.1 hy0
      linarith
    have := Real.sq_sqrt (show 0 ≤ x ^ 2 + y ^ 2 by positivity)
    rw [hy'] at this
    linarith
  have h1 := (prob_compl_eq_zero_iff (μ := gaussianReal 0 (Real.toNNReal (sigma ^ 2)))
    (s := {y : ℝ | y ^ 2 = c ^ 2 - x ^ 2}) (by measurability)).1 hall
  rw [normal_two 0 sigma hs] at h1
  exact zero_ne_one h1

theorem weibullPdf_meas (alpha beta : ℝ) : Measurable (weibullPdf alpha beta) := by
  unfold weibullPdf
  refine Measurable.ite measurableSet_Iic measurable_const ?_
  fun_prop

theorem weibullPdf_nonneg {alpha beta : ℝ} (ha : 0 < alpha) (hb : 0 < beta) (x : ℝ) :
    0 ≤ weibullPdf alpha beta x := by
  unfold weibullPdf
  split_ifs with h
  · exact le_rfl
  · push Not at h; positivity

/-- raw moments of the Weibull law -/
theorem weibull_raw {alpha beta : ℝ} (ha : 0 < alpha) (hb : 0 < beta) (k : ℕ) :
    ∫ x, x ^ k ∂(weibullLaw alpha beta) = beta ^ k * Real.Gamma (1 + k / alpha) := by
  unfold weibullLaw
  rw [integral_withDensity_eq_integral_toReal_smul (weibullPdf_meas alpha beta).ennreal_ofReal
    (Filter.Eventually.of_forall fun x => ENNReal.ofReal_lt_top)]
  have e0 : (fun x : ℝ => (ENNReal.ofReal (weibullPdf alpha beta x)).toReal • x ^ k) =
      (Set.Ioi (0 : ℝ)).indicator fun x => x ^ k * (alpha / beta * (x / beta) ^ (alpha - 1) *
        Real.exp (-(x / beta) ^ alpha)) := by
    funext x
    rw [ENNReal.toReal_ofReal (weibullPdf_nonneg ha hb x), smul_eq_mul]
    by_cases hx : x ≤ 0
    · rw [Set.indicator_of_notMem (by simpa using hx), weibullPdf, if_pos hx, zero_mul]
    · rw [Set.indicator_of_mem (by simpa using hx), weibullPdf, if_neg hx, mul_comm]
  rw [e0, integral_indicator measurableSet_Ioi]
  have e1 := integral_comp_mul_left_Ioi (fun x : ℝ => x ^ k * (alpha / beta * (x / beta) ^ (alpha - 1) *
        Real.exp (-(x / beta) ^ alpha))) 0 hb
  rw [mul_zero, smul_eq_mul] at e1
  have e2 : ∫ x in Set.Ioi (0:ℝ), x ^ k * (alpha / beta * (x / beta) ^ (alpha - 1) *
        Real.exp (-(x / beta) ^ alpha)) = beta * ∫ x in Set.Ioi (0:ℝ), (beta * x) ^ k *
        (alpha / beta * ((beta * x) / beta) ^ (alpha - 1) * Real.exp (-((beta * x) / beta) ^ alpha)) := by
    rw [e1, ← mul_assoc, mul_inv_cancel₀ hb.ne', one_mul]
  rw [e2]
  have e3 : ∫ x in Set.Ioi (0:ℝ), (beta * x) ^ k *
        (alpha / beta * ((beta * x) / beta) ^ (alpha - 1) * Real.exp (-((beta * x) / beta) ^ alpha)) =
      ∫ x in Set.Ioi (0:ℝ), (beta ^ k * (alpha / beta)) * (x ^ (k + alpha - 1) * Real.exp (-x ^ alpha)) := by
    refine setIntegral_congr_fun measurableSet_Ioi fun x hx => ?_
    have hx' : (0:ℝ) < x := hx
    have h1 : beta * x / beta = x := by field_simp
    have h2 : x ^ ((k : ℝ) + alpha - 1) = x ^ k * x ^ (alpha - 1) := by
      rw [add_sub_assoc, Real.rpow_add hx', Real.rpow_natCast]
    simp only [h1, h2, mul_pow]
    ring
  rw [e3, integral_const_mul]
  have hk : (0:ℝ) ≤ k := Nat.cast_nonneg k
  rw [integral_rpow_mul_exp_neg_rpow ha (by linarith)]
  have h4 : ((k : ℝ) + alpha - 1 + 1) / alpha = 1 + k / alpha := by field_simp; ring
  rw [h4]
  field_simp

theorem weibull_prob {alpha beta : ℝ} (ha : 0 < alpha) (hb : 0 < beta) :
    IsProbabilityMeasure (weibullLaw alpha beta) := by
  have h := weibull_raw ha hb 0
  simp only [pow_zero, Nat.cast_zero, zero_div, add_zero, Real.Gamma_one, mul_one, integral_const,
    smul_eq_mul] at h
  refine ⟨?_⟩
  have := h
  unfold Measure.real at this
  rw [← ENNReal.toReal_one] at this
  refine (ENNReal.toReal_eq_toReal_iff' ?_ (by simp)).1 this
  intro ht
  rw [ht] at this
  simp at this

theorem weibull_mean {alpha beta : ℝ} (ha : 0 < alpha) (hb : 0 < beta) :
    mean (weibullLaw alpha beta) = beta * Real.Gamma (1 + 1 / alpha) := by
  have := weibull_raw ha hb 1
  simpa [mean] using this

end Verif.Spec
