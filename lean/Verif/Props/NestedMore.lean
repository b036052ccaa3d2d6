import Verif.Props.Nested
import Verif.Lemmas.LawGamma
import Mathlib.Probability.Distributions.Gamma

/-!
# C156: more families with one mode and no flat part
-/

namespace Verif.Props
open Verif Verif.Modifier Verif.Hdi Verif.Interval Verif.Spec MeasureTheory Set

/-- strictly rising before the mode and strictly falling after it: no flat part -/
theorem no_flat_of_strict (f : ℝ → ℝ) (lo hi : EReal) (m : ℝ)
    (hup : ∀ x y : ℝ, lo < (x : EReal) → x < y → y < m → f x < f y)
    (hdown : ∀ x y : ℝ, m < x → x < y → (y : EReal) < hi → f y < f x) : NoFlat f lo hi := by
  intro p q hpq hp hq
  rcases le_total m ((p + q) / 2) with h | h
  · refine ⟨p + (q - p) * 2 / 3, p + (q - p) * 3 / 4, by linarith, by linarith, by linarith, by linarith, ?_⟩
    exact (hdown _ _ (by linarith) (by linarith)
      (lt_of_lt_of_le (EReal.coe_lt_coe_iff.2 (by linarith)) hq)).ne'
  · refine ⟨p + (q - p) / 4, p + (q - p) / 3, by linarith, by linarith, by linarith, by linarith, ?_⟩
    exact (hup _ _ (lt_of_le_of_lt hp (EReal.coe_lt_coe_iff.2 (by linarith))) (by linarith) (by linarith)).ne

/-- densities on the positive numbers, from the derivative of their logarithm -/
private theorem pos_shape {f g g' : ℝ → ℝ} {C m : ℝ} (hC : 0 < C) (hm : 0 < m) (h0 : ∀ x ≤ 0, f x = 0)
    (hf : ∀ x, 0 < x → f x = C * Real.exp (g x)) (hd : ∀ x, 0 < x → HasDerivAt g (g' x) x)
    (hup : ∀ x, 0 < x → x < m → 0 < g' x) (hdn : ∀ x, m < x → g' x < 0) (hi : EReal) :
    Unimodal f m ∧ (∀ y : ℝ, ((0 : ℝ) : EReal) < (y : EReal) → ContinuousAt f y) ∧ NoFlat f ((0 : ℝ) : EReal) hi := by
  have hinc : StrictMonoOn g (Ioc 0 m) := by
    refine strictMonoOn_of_deriv_pos (convex_Ioc 0 m) (fun x hx => (hd x hx.1).continuousAt.continuousWithinAt) ?_
    intro x hx
    rw [interior_Ioc] at hx
    rw [(hd x hx.1).deriv]
    exact hup x hx.1 hx.2
  have hdec : StrictAntiOn g (Ici m) := by
    refine strictAntiOn_of_deriv_neg (convex_Ici m)
      (fun x hx => (hd x (hm.trans_le hx)).continuousAt.continuousWithinAt) ?_
    intro x hx
    rw [interior_Ici] at hx
    rw [(hd x (hm.trans hx)).deriv]
    exact hdn x hx
  have hlt : ∀ x y, 0 < x → 0 < y → g x < g y → f x < f y := by
    intro x y hx hy h
    rw [hf x hx, hf y hy]
    exact mul_lt_mul_of_pos_left (Real.exp_lt_exp.2 h) hC
  have hpos : ∀ x, 0 ≤ f x := by
    intro x
    rcases le_or_gt x 0 with h | h
    · rw [h0 x h]
    · rw [hf x h]; positivity
  refine ⟨⟨?_, ?_⟩, ?_, ?_⟩
  · intro x hx y hy hxy
    rcases le_or_gt x 0 with h | h
    · rw [h0 x h]; exact hpos y
    · rcases hxy.lt_or_eq with h' | h'
      · exact (hlt x y h (h.trans h') (hinc ⟨h, hx⟩ ⟨h.trans h', hy⟩ h')).le
      · rw [h']
  · intro x hx y hy hxy
    rcases hxy.lt_or_eq with h' | h'
    · exact (hlt y x (hm.trans_le hy) (hm.trans_le hx) (hdec hx hy h')).le
    · rw [h']
  · intro y hy
    have hy' : 0 < y := EReal.coe_lt_coe_iff.1 hy
    have hc : ContinuousAt (fun x => C * Real.exp (g x)) y :=
      ((Real.continuous_exp.continuousAt).comp (hd y hy').continuousAt).const_mul C
    refine hc.congr ?_
    filter_upwards [lt_mem_nhds hy'] with x hx
    rw [hf x hx]
  · refine no_flat_of_strict f _ hi m ?_ ?_
    · intro x y hx hxy hy
      have hx' : 0 < x := EReal.coe_lt_coe_iff.1 hx
      exact hlt x y hx' (hx'.trans hxy) (hinc ⟨hx', (hxy.trans hy).le⟩ ⟨hx'.trans hxy, hy.le⟩ hxy)
    · intro x y hx hxy _
      exact hlt y x (hm.trans (hx.trans hxy)) (hm.trans hx) (hdec hx.le (hx.trans hxy).le hxy)

/-- Gamma with `alpha > 1`: one mode, at `(alpha - 1) / beta`, and no flat part -/
theorem gamma_nested (a r : ℝ) (ha : 1 < a) (hr : 0 < r) (b : Base) (hpdf : b.pdf = gammaPdf a r)
    (hlo : b.lo = ((0 : ℝ) : EReal)) :
    Unimodal b.pdf ((a - 1) / r) ∧ (∀ y : ℝ, b.lo < (y : EReal) → ContinuousAt b.pdf y) ∧ NoFlat b.pdf b.lo b.hi := by
  rw [hpdf, hlo]
  have hG : 0 < Real.Gamma a := Real.Gamma_pos_of_pos (by linarith)
  refine pos_shape (C := r ^ a / Real.Gamma a) (g := fun x => Real.log x * (a - 1) - r * x)
    (g' := fun x => x⁻¹ * (a - 1) - r) (div_pos (Real.rpow_pos_of_pos hr _) hG) (div_pos (by linarith) hr) ?_ ?_ ?_ ?_ ?_ b.hi
  · intro x hx
    unfold gammaPdf
    rw [if_neg (by linarith)]
  · intro x hx
    unfold gammaPdf
    rw [if_pos hx, Real.rpow_def_of_pos hx, sub_eq_add_neg (Real.log x * (a - 1)), Real.exp_add]
    ring
  · intro x hx
    have h := ((Real.hasDerivAt_log hx.ne').mul_const (a - 1)).sub ((hasDerivAt_id x).const_mul r)
    rw [mul_one] at h
    exact h
  · intro x hx hxm
    rw [lt_div_iff₀ hr] at hxm
    have : 0 < x⁻¹ * (a - 1) - x⁻¹ * (x * r) := by
      rw [← mul_sub]; exact mul_pos (inv_pos.2 hx) (by linarith)
    rwa [inv_mul_cancel_left₀ hx.ne'] at this
  · intro x hxm
    have hx : 0 < x := (div_pos (by linarith) hr).trans hxm
    rw [div_lt_iff₀ hr] at hxm
    have : 0 < x⁻¹ * (x * r) - x⁻¹ * (a - 1) := by
      rw [← mul_sub]; exact mul_pos (inv_pos.2 hx) (by linarith)
    rw [inv_mul_cancel_left₀ hx.ne'] at this
    linarith

/-- InverseGamma: one mode, at `beta / (alpha + 1)`, and no flat part -/
theorem inverseGamma_nested (a r : ℝ) (ha : 0 < a) (hr : 0 < r) (b : Base) (hpdf : b.pdf = inverseGammaPdf a r)
    (hlo : b.lo = ((0 : ℝ) : EReal)) :
    Unimodal b.pdf (r / (a + 1)) ∧ (∀ y : ℝ, b.lo < (y : EReal) → ContinuousAt b.pdf y) ∧ NoFlat b.pdf b.lo b.hi := by
  rw [hpdf, hlo]
  have hG : 0 < Real.Gamma a := Real.Gamma_pos_of_pos ha
  refine pos_shape (C := r ^ a / Real.Gamma a) (g := fun x => Real.log x * (-a - 1) + -r * x⁻¹)
    (g' := fun x => x⁻¹ * (-a - 1) + -r * (-(x ^ 2)⁻¹)) (div_pos (Real.rpow_pos_of_pos hr _) hG) (div_pos hr (by linarith))
    ?_ ?_ ?_ ?_ ?_ b.hi
  · intro x hx
    unfold inverseGammaPdf
    rw [if_neg (by linarith)]
  · intro x hx
    unfold inverseGammaPdf
    rw [if_pos hx, Real.rpow_def_of_pos hx, Real.exp_add, div_eq_mul_inv (-r) x]
    ring
  · intro x hx
    exact ((Real.hasDerivAt_log hx.ne').mul_const (-a - 1)).add ((hasDerivAt_inv hx.ne').const_mul (-r))
  · intro x hx hxm
    rw [lt_div_iff₀ (by linarith)] at hxm
    have e : x⁻¹ * (-a - 1) + -r * (-(x ^ 2)⁻¹) = (x ^ 2)⁻¹ * (r - x * (a + 1)) := by field_simp; ring
    simp only [e]
    exact mul_pos (by positivity) (by linarith)
  · intro x hxm
    have hx : 0 < x := (div_pos hr (by linarith)).trans hxm
    rw [div_lt_iff₀ (by linarith)] at hxm
    have e : x⁻¹ * (-a - 1) + -r * (-(x ^ 2)⁻¹) = (x ^ 2)⁻¹ * (r - x * (a + 1)) := by field_simp; ring
    simp only [e]
    exact mul_neg_of_pos_of_neg (by positivity) (by linarith)

/-- there is such a distribution -/
theorem gamma_base_exists (a r : ℝ) (ha : 1 < a) (hr : 0 < r) :
    ∃ b : Base, b.discrete = false ∧ b.pdf = gammaPdf a r ∧ b.lo = ((0 : ℝ) : EReal) := by
  have e : gammaPdf a r = ProbabilityTheory.gammaPDFReal a r := by
    funext x
    unfold gammaPdf ProbabilityTheory.gammaPDFReal
    rcases lt_trichotomy x 0 with h | h | h
    · rw [if_neg (by linarith), if_neg (by linarith)]
    · rw [h, if_neg (lt_irrefl _), if_pos le_rfl, Real.zero_rpow (by linarith)]; ring
    · rw [if_pos h, if_pos h.le]; ring
  have hprob : IsProbabilityMeasure (volume.withDensity fun x => ENNReal.ofReal (gammaPdf a r x)) := by
    rw [e]
    exact ProbabilityTheory.isProbabilityMeasure_gammaMeasure (by linarith) hr
  refine ⟨densityBase (gammaPdf a r) (by rw [e]; exact ProbabilityTheory.measurable_gammaPDFReal a r)
    (fun x => by rw [e]; exact ProbabilityTheory.gammaPDFReal_nonneg (by linarith) hr x) ((0 : ℝ) : EReal) ⊤ ?_, rfl, rfl, rfl⟩
  have h : ∀ᵐ y ∂(volume.withDensity fun x => ENNReal.ofReal (gammaPdf a r x)), (0 : ℝ) ≤ y := by
    rw [ae_iff, show {y : ℝ | ¬ (0 : ℝ) ≤ y} = Iio 0 by ext y; simp, withDensity_apply _ measurableSet_Iio,
      setLIntegral_congr_fun (g := fun _ => 0) measurableSet_Iio (by
        intro y hy
        simp only [gammaPdf]
        rw [if_neg (not_lt.2 (show y < 0 from hy).le), ENNReal.ofReal_zero])]
    simp
  filter_upwards [h] with y hy
  exact ⟨EReal.coe_le_coe_iff.2 hy, le_top⟩

example (min1 min2 : Minimize) (h1 : Exact min1) (h2 : Exact min2) : ∃ b : Base, b.pdf = gammaPdf 2 3 ∧
    continuousHdi min1 b 0.94 = continuousHdi min2 b 0.94 := by
  obtain ⟨b, hb, hp, hl⟩ := gamma_base_exists 2 3 (by norm_num) (by norm_num)
  obtain ⟨k1, k2, k3⟩ := gamma_nested 2 3 (by norm_num) (by norm_num) b hp hl
  exact ⟨b, hp, hdi_unique min1 min2 h1 h2 b hb _ k1 (fun y h _ => k2 y h) k3 0.94 (by norm_num) (by norm_num)⟩

example (minimize : Minimize) (hmin : Exact minimize) : ∃ b : Base, b.pdf = inverseGammaPdf 3 2 ∧
    (continuousHdi minimize b 0.5).2 ≤ (continuousHdi minimize b 0.94).2 := by
  have hprob : IsProbabilityMeasure (volume.withDensity fun x => ENNReal.ofReal (inverseGammaPdf 3 2 x)) :=
    (Verif.Law.inverseGamma (a := 3) (b := 2) (by norm_num) (by norm_num)).prob
  have h : ∀ᵐ y ∂(volume.withDensity fun x => ENNReal.ofReal (inverseGammaPdf 3 2 x)), (0 : ℝ) ≤ y := by
    rw [ae_iff, show {y : ℝ | ¬ (0 : ℝ) ≤ y} = Iio 0 by ext y; simp, withDensity_apply _ measurableSet_Iio,
      setLIntegral_congr_fun (g := fun _ => 0) measurableSet_Iio (by
        intro y hy
        simp only [inverseGammaPdf]
        rw [if_neg (not_lt.2 (show y < 0 from hy).le), ENNReal.ofReal_zero])]
    simp
  let b : Base := densityBase (inverseGammaPdf 3 2)
    (by unfold inverseGammaPdf; exact Measurable.ite measurableSet_Ioi (by fun_prop) measurable_const)
    (fun x => by
      unfold inverseGammaPdf
      split_ifs with hx
      · have := Real.Gamma_pos_of_pos (show (0 : ℝ) < 3 by norm_num)
        positivity
      · exact le_rfl) ((0 : ℝ) : EReal) ⊤
    (by filter_upwards [h] with y hy; exact ⟨EReal.coe_le_coe_iff.2 hy, le_top⟩)
  obtain ⟨k1, k2, k3⟩ := inverseGamma_nested 3 2 (by norm_num) (by norm_num) b rfl rfl
  exact ⟨b, rfl, (hdi_nested minimize minimize hmin hmin b rfl _ k1 (fun y h _ => k2 y h) k3 0.5 0.94 (by norm_num)
    (by norm_num) (by norm_num)).2⟩

end Verif.Props
