import Verif.Lemmas.LawGamma
import Mathlib.Probability.Distributions.Gaussian.Real

/-!
# Means and variances: Normal, HalfNormal, LogNormal
-/

namespace Verif.Law
open MeasureTheory Verif.Spec Set ProbabilityTheory

private theorem pdf_eq {s : ℝ} (hs : 0 < s) (m x : ℝ) : normalPdf m s x = gaussianPDFReal m (Real.toNNReal (s ^ 2)) x := by
  unfold normalPdf gaussianPDFReal
  have e : ((Real.toNNReal (s ^ 2) : NNReal) : ℝ) = s ^ 2 := Real.coe_toNNReal _ (by positivity)
  have h : √(2 * Real.pi * s ^ 2) = s * √(2 * Real.pi) := by
    rw [mul_comm (2 * Real.pi), Real.sqrt_mul (by positivity), Real.sqrt_sq hs.le]
  rw [e, h, one_div]

theorem normalRaw {s : ℝ} (hs : 0 < s) (m : ℝ) : Raw (normalPdf m s) m (m ^ 2 + s ^ 2) := by
  have hv : Real.toNNReal (s ^ 2) ≠ 0 := by
    simp only [ne_eq, Real.toNNReal_eq_zero, not_le]; positivity
  have ev : ((Real.toNNReal (s ^ 2) : NNReal) : ℝ) = s ^ 2 := Real.coe_toNNReal _ (by positivity)
  have key : ∀ (g : ℝ → ℝ) (c : ℝ), Integrable g (gaussianReal m (Real.toNNReal (s ^ 2))) →
      ∫ x, g x ∂gaussianReal m (Real.toNNReal (s ^ 2)) = c → HI (fun x => g x * normalPdf m s x) c := by
    intro g c hi hc
    rw [gaussianReal_of_var_ne_zero _ hv] at hi
    rw [integral_gaussianReal_eq_integral_smul hv] at hc
    refine ⟨?_, ?_⟩
    · rw [integrable_withDensity_iff (measurable_gaussianPDF _ _)
        (Filter.Eventually.of_forall fun x => gaussianPDF_lt_top)] at hi
      simpa only [toReal_gaussianPDF, pdf_eq hs] using hi
    · simpa only [smul_eq_mul, pdf_eq hs, mul_comm] using hc
  have mem := memLp_id_gaussianReal (μ := m) (v := Real.toNNReal (s ^ 2)) 2
  refine ⟨?_, fun x => by unfold normalPdf; positivity, ?_, ?_, ?_⟩
  · unfold normalPdf; fun_prop
  · have := key (fun _ => 1) 1 (integrable_const _) (by simp)
    exact this.congr fun x => one_mul _
  · exact key (fun x => x) m ((memLp_id_gaussianReal (μ := m) (v := Real.toNNReal (s ^ 2)) 1).integrable (by simp))
      integral_id_gaussianReal
  · refine key (fun x => x ^ 2) _ (by simpa using mem.integrable_sq) ?_
    have h2 := variance_fun_id_gaussianReal (μ := m) (v := Real.toNNReal (s ^ 2))
    rw [variance_eq_sub (X := fun x : ℝ => x) mem] at h2
    have h3 : ∫ x, x ∂gaussianReal m (Real.toNNReal (s ^ 2)) = m := integral_id_gaussianReal
    simp only [Pi.pow_apply, ev] at h2
    rw [h3] at h2
    linarith

theorem normal {s : ℝ} (hs : 0 < s) (m : ℝ) : HasMoments (ofPdf (normalPdf m s)) m (s ^ 2) := by
  have := (normalRaw hs m).moments
  rwa [show m ^ 2 + s ^ 2 - m ^ 2 = s ^ 2 by ring] at this

theorem halfNormal {s : ℝ} (hs : 0 < s) :
    HasMoments (ofPdf (halfNormalPdf s)) (s * √(2 / Real.pi)) (s ^ 2 * (1 - 2 / Real.pi)) := by
  have hpi := Real.pi_pos
  have hb : 0 < 1 / (2 * s ^ 2) := by positivity
  have key : ∀ q : ℝ, -1 < q → HIs (Ioi 0) (fun x => x ^ q * Real.exp (-x ^ 2 / (2 * s ^ 2)))
      ((1 / (2 * s ^ 2)) ^ (-(q + 1) / 2) * (1 / 2) * Real.Gamma ((q + 1) / 2)) := by
    intro q hq
    have e : ∀ x ∈ Ioi (0 : ℝ), x ^ q * Real.exp (-(1 / (2 * s ^ 2)) * x ^ (2 : ℝ)) =
        x ^ q * Real.exp (-x ^ 2 / (2 * s ^ 2)) := by
      intro x _
      rw [Real.rpow_two]; congr 2; ring
    exact HIs.congr measurableSet_Ioi ⟨integrableOn_rpow_mul_exp_neg_mul_rpow hq two_pos hb,
      integral_rpow_mul_exp_neg_mul_rpow two_pos hq hb⟩ e
  have r : √(2 * s ^ 2) = √2 * s := by rw [Real.sqrt_mul (by norm_num), Real.sqrt_sq hs.le]
  have p2 : √2 * √2 = 2 := Real.mul_self_sqrt (by norm_num)
  have pp : √Real.pi * √Real.pi = Real.pi := Real.mul_self_sqrt hpi.le
  have hp0 : 0 < √Real.pi := Real.sqrt_pos.mpr hpi
  have h20 : 0 < √(2 : ℝ) := Real.sqrt_pos.mpr (by norm_num)
  have w0 : (1 / (2 * s ^ 2)) ^ (-((0 : ℝ) + 1) / 2) = √2 * s := by
    rw [one_div, Real.inv_rpow (by positivity), ← Real.rpow_neg (by positivity), ← r, Real.sqrt_eq_rpow]; norm_num
  have w1 : (1 / (2 * s ^ 2)) ^ (-((1 : ℝ) + 1) / 2) = 2 * s ^ 2 := by
    rw [one_div, Real.inv_rpow (by positivity), ← Real.rpow_neg (by positivity)]
    norm_num
  have w2 : (1 / (2 * s ^ 2)) ^ (-((2 : ℝ) + 1) / 2) = 2 * s ^ 2 * (√2 * s) := by
    rw [one_div, Real.inv_rpow (by positivity), ← Real.rpow_neg (by positivity),
      show -(-((2 : ℝ) + 1) / 2) = 1 + 1 / 2 by norm_num, Real.rpow_add (by positivity), Real.rpow_one, ← Real.sqrt_eq_rpow, r]
  have k0 := key 0 (by norm_num)
  have k1 := key 1 (by norm_num)
  have k2 := key 2 (by norm_num)
  rw [w0, show ((0 : ℝ) + 1) / 2 = 1 / 2 by norm_num, Real.Gamma_one_half_eq] at k0
  rw [w1, show ((1 : ℝ) + 1) / 2 = 1 by norm_num, Real.Gamma_one] at k1
  rw [w2, show ((2 : ℝ) + 1) / 2 = 1 / 2 + 1 by norm_num, Real.Gamma_add_one (by norm_num), Real.Gamma_one_half_eq] at k2
  have sq2 : √(2 / Real.pi) = √2 / √Real.pi := Real.sqrt_div (by norm_num) _
  have h := Raw.on (s := Ioi 0) (g := fun x => √2 / (s * √Real.pi) * Real.exp (-x ^ 2 / (2 * s ^ 2)))
    (m := s * √(2 / Real.pi)) (q := s ^ 2) measurableSet_Ioi (by fun_prop) (fun x hx => by positivity) ?_ ?_ ?_
  · have := (h.ae (g := halfNormalPdf s) ?_ ?_ 0 ?_).moments
    · convert this using 1
      rw [mul_pow, Real.sq_sqrt (by positivity)]; ring
    · unfold halfNormalPdf
      exact Measurable.ite measurableSet_Iio measurable_const (by fun_prop)
    · intro x
      unfold halfNormalPdf
      split_ifs
      · exact le_rfl
      · positivity
    · intro x hx
      rcases lt_or_gt_of_ne hx with h | h
      · simp [halfNormalPdf, Set.indicator, h, h.le]
      · simp [halfNormalPdf, Set.indicator, h, h.le]
  · refine (k0.cmul (√2 / (s * √Real.pi))).congr measurableSet_Ioi (fun x _ => by rw [Real.rpow_zero, one_mul]) |>.val ?_
    field_simp; nlinarith
  · refine (k1.cmul (√2 / (s * √Real.pi))).congr measurableSet_Ioi (fun x _ => by rw [Real.rpow_one]; ring) |>.val ?_
    rw [sq2]; field_simp
  · refine (k2.cmul (√2 / (s * √Real.pi))).congr measurableSet_Ioi (fun x _ => by rw [Real.rpow_two]; ring) |>.val ?_
    field_simp; nlinarith

/-- exponential moments of the normal density -/
theorem normal_exp {s : ℝ} (hs : 0 < s) (m k : ℝ) :
    HI (fun z => Real.exp (k * z) * normalPdf m s z) (Real.exp (k * m + k ^ 2 * s ^ 2 / 2)) := by
  have h := (normalRaw hs (m + k * s ^ 2)).one.cmul (Real.exp (k * m + k ^ 2 * s ^ 2 / 2))
  rw [mul_one] at h
  refine h.congr fun z => ?_
  unfold normalPdf
  rw [mul_left_comm, ← Real.exp_add, mul_left_comm (Real.exp (k * z)), ← Real.exp_add]
  congr 2
  field_simp
  ring

theorem logNormal {s : ℝ} (hs : 0 < s) (m : ℝ) :
    HasMoments (ofPdf fun x => if 0 < x then logNormalPdf m s x else 0) (Real.exp (m + s ^ 2 / 2))
      ((Real.exp (s ^ 2) - 1) * Real.exp (2 * m + s ^ 2)) := by
  have e : ∀ z, Real.exp z * logNormalPdf m s (Real.exp z) = normalPdf m s z := by
    intro z
    unfold logNormalPdf normalPdf
    rw [Real.log_exp]
    have := Real.exp_pos z
    field_simp
  have h := Raw.on (s := Ioi 0) (g := logNormalPdf m s) (m := Real.exp (m + s ^ 2 / 2))
    (q := Real.exp (2 * m + 2 * s ^ 2)) measurableSet_Ioi (by unfold logNormalPdf; fun_prop) (fun x hx => ?_) ?_ ?_ ?_
  · have := (h.congr (g := fun x => if 0 < x then logNormalPdf m s x else 0)
      fun x => by simp only [Set.indicator, Set.mem_Ioi]).moments
    convert this using 1
    rw [← Real.exp_nat_mul, sub_mul, ← Real.exp_add]
    push_cast
    ring_nf
  · have : 0 < x := hx
    unfold logNormalPdf; positivity
  · rw [HIs.exp]
    exact (normal_exp hs m 0).congr (fun z => by rw [e]; simp) |>.val (by simp)
  · rw [HIs.exp]
    refine (normal_exp hs m 1).congr (fun z => ?_) |>.val (by ring_nf)
    rw [← e, one_mul]
  · rw [HIs.exp]
    refine (normal_exp hs m 2).congr (fun z => ?_) |>.val (by ring_nf)
    rw [← e, two_mul, Real.exp_add]; ring

end Verif.Law
