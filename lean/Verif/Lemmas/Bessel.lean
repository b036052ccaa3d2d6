import Verif.Lemmas.RiceWeibull
import Mathlib.Analysis.SpecialFunctions.Gaussian.GaussianIntegral
import Mathlib.Analysis.SpecialFunctions.Integrals.Basic
import Mathlib.Analysis.SpecialFunctions.PolarCoord
import Mathlib.MeasureTheory.Integral.IntegralEqImproper
import Mathlib.MeasureTheory.Integral.IntervalIntegral.Periodic
import Mathlib.Analysis.Real.Pi.Bounds
import Mathlib.Analysis.Calculus.ParametricIntervalIntegral
import Mathlib.Tactic

/-!
# The mean of a Rice law in terms of Bessel functions

The length of a vector is a quarter of the integral of its projections on all directions, and the projections of a normal
vector are normal.
-/

namespace Verif.Spec
open MeasureTheory ProbabilityTheory Set Filter Topology intervalIntegral

/-! ## lengths as averages of projections -/

private theorem abs_cos_int : ∫ t in (0 : ℝ)..(2 * Real.pi), |Real.cos t| = 4 := by
  have hp : Function.Periodic (fun t => |Real.cos t|) (2 * Real.pi) := fun t => by simp [Real.cos_add_two_pi]
  have hc : ∀ a b, IntervalIntegrable (fun t => |Real.cos t|) volume a b := fun a b =>
    (Real.continuous_cos.abs).intervalIntegrable a b
  have h := hp.intervalIntegral_add_eq 0 (-(Real.pi / 2))
  rw [zero_add] at h
  rw [h, ← integral_add_adjacent_intervals (hc _ (Real.pi / 2)) (hc _ _)]
  have h1 : ∫ t in (-(Real.pi / 2))..(Real.pi / 2), |Real.cos t| = 2 := by
    have : ∫ t in (-(Real.pi / 2))..(Real.pi / 2), |Real.cos t| = ∫ t in (-(Real.pi / 2))..(Real.pi / 2), Real.cos t := by
      refine integral_congr fun t ht => ?_
      rw [uIcc_of_le (by linarith [Real.pi_pos])] at ht
      exact abs_of_nonneg (Real.cos_nonneg_of_mem_Icc ht)
    rw [this, integral_cos]; simp; norm_num
  have h2 : ∫ t in (Real.pi / 2)..(-(Real.pi / 2) + 2 * Real.pi), |Real.cos t| = 2 := by
    have : ∫ t in (Real.pi / 2)..(-(Real.pi / 2) + 2 * Real.pi), |Real.cos t| =
        ∫ t in (Real.pi / 2)..(-(Real.pi / 2) + 2 * Real.pi), -Real.cos t := by
      refine integral_congr fun t ht => ?_
      rw [uIcc_of_le (by linarith [Real.pi_pos])] at ht
      exact abs_of_nonpos (Real.cos_nonpos_of_pi_div_two_le_of_le ht.1 (by linarith [ht.2]))
    rw [this, intervalIntegral.integral_neg, integral_cos, Real.sin_add_two_pi, Real.sin_neg, Real.sin_pi_div_two]; norm_num
  rw [h1, h2]; norm_num

private theorem length_eq (a b : ℝ) :
    ∫ t in (0 : ℝ)..(2 * Real.pi), |a * Real.cos t + b * Real.sin t| = 4 * √(a ^ 2 + b ^ 2) := by
  set z : ℂ := ⟨a, b⟩ with hz
  have hr : ‖z‖ = √(a ^ 2 + b ^ 2) := by
    rw [Complex.norm_eq_sqrt_sq_add_sq]
  have ha : a = ‖z‖ * Real.cos z.arg := by rw [Complex.norm_mul_cos_arg]
  have hb : b = ‖z‖ * Real.sin z.arg := by rw [Complex.norm_mul_sin_arg]
  have e : ∀ t, |a * Real.cos t + b * Real.sin t| = ‖z‖ * |Real.cos (t - z.arg)| := by
    intro t
    have h : a * Real.cos t + b * Real.sin t = ‖z‖ * Real.cos (t - z.arg) := by
      rw [Real.cos_sub, mul_add]
      linear_combination Real.cos t * ha + Real.sin t * hb
    rw [h, abs_mul, abs_of_nonneg (norm_nonneg z)]
  simp only [e]
  rw [intervalIntegral.integral_const_mul, intervalIntegral.integral_comp_sub_right (fun t => |Real.cos t|)]
  have hp : Function.Periodic (fun t => |Real.cos t|) (2 * Real.pi) := fun t => by simp [Real.cos_add_two_pi]
  have h := hp.intervalIntegral_add_eq (0 - z.arg) 0
  rw [show 0 - z.arg + 2 * Real.pi = 2 * Real.pi - z.arg by ring, zero_add] at h
  rw [h, abs_cos_int, hr]; ring

/-! ## the mean distance from zero of a normal variable -/

/-- the integral of the Gaussian kernel from zero on -/
private noncomputable def gk (x : ℝ) : ℝ := ∫ u in (0 : ℝ)..x, Real.exp (-(1 / 2) * u ^ 2)

private theorem gk_cont : Continuous fun u : ℝ => Real.exp (-(1 / 2) * u ^ 2) := by fun_prop

private theorem gk_deriv (x : ℝ) : HasDerivAt gk (Real.exp (-(1 / 2) * x ^ 2)) x :=
  intervalIntegral.integral_hasDerivAt_right (gk_cont.intervalIntegrable _ _)
    (gk_cont.stronglyMeasurableAtFilter _ _) gk_cont.continuousAt

private theorem gk_neg (x : ℝ) : gk (-x) = -gk x := by
  unfold gk
  have h := intervalIntegral.integral_comp_neg (a := 0) (b := x) (fun u : ℝ => Real.exp (-(1 / 2) * u ^ 2))
  simp only [neg_sq, neg_zero] at h
  rw [h, intervalIntegral.integral_symm]

private theorem gk_top : Tendsto gk atTop (𝓝 (√(Real.pi / 2))) := by
  have h := intervalIntegral_tendsto_integral_Ioi (μ := volume) (f := fun u : ℝ => Real.exp (-(1 / 2) * u ^ 2)) 0
    ((integrable_exp_neg_mul_sq (by norm_num : (0 : ℝ) < 1 / 2)).integrableOn) tendsto_id
  rw [integral_gaussian_Ioi] at h
  have e : √(Real.pi / (1 / 2)) / 2 = √(Real.pi / 2) := by
    rw [show Real.pi / (1 / 2) = 2 ^ 2 * (Real.pi / 2) by ring, Real.sqrt_mul (by norm_num), Real.sqrt_sq (by norm_num)]
    ring
  rw [e] at h
  exact h

private theorem gk_bot : Tendsto gk atBot (𝓝 (-√(Real.pi / 2))) := by
  have h := (gk_top.comp tendsto_neg_atBot_atTop).neg
  refine h.congr fun x => ?_
  simp [gk_neg]

/-- an antiderivative of `x` times the kernel around `m` -/
private noncomputable def prim (m x : ℝ) : ℝ := -Real.exp (-(1 / 2) * (x - m) ^ 2) + m * gk (x - m)

private theorem prim_deriv (m x : ℝ) : HasDerivAt (prim m) (x * Real.exp (-(1 / 2) * (x - m) ^ 2)) x := by
  have h1 : HasDerivAt (fun x : ℝ => x - m) 1 x := (hasDerivAt_id x).sub_const m
  have h2 := ((h1.pow 2).const_mul (-(1 / 2) : ℝ)).exp.neg
  have h3 := ((gk_deriv (x - m)).comp x h1).const_mul m
  refine (h2.add h3).congr_deriv ?_
  simp only [Nat.cast_ofNat, Nat.add_one_sub_one, pow_one, mul_one, Pi.pow_apply]
  ring

private theorem exp_top (m : ℝ) : Tendsto (fun x : ℝ => Real.exp (-(1 / 2) * (x - m) ^ 2)) atTop (𝓝 0) := by
  have h1 : Tendsto (fun x : ℝ => x - m) atTop atTop := tendsto_atTop_add_const_right _ _ tendsto_id
  have h2 := (tendsto_pow_atTop (n := 2) (by norm_num)).comp h1
  have h3 := h2.const_mul_atTop_of_neg (show (-(1 / 2) : ℝ) < 0 by norm_num)
  exact Real.tendsto_exp_atBot.comp h3

private theorem exp_bot (m : ℝ) : Tendsto (fun x : ℝ => Real.exp (-(1 / 2) * (x - m) ^ 2)) atBot (𝓝 0) := by
  have h := (exp_top (-m)).comp tendsto_neg_atBot_atTop
  refine h.congr fun x => ?_
  simp only [Function.comp_apply]
  congr 2; ring

private theorem kernel_int (m : ℝ) : Integrable fun x : ℝ => x * Real.exp (-(1 / 2) * (x - m) ^ 2) := by
  have h1 := (integrable_mul_exp_neg_mul_sq (b := 1 / 2) (by norm_num)).comp_sub_right m
  have h2 := ((integrable_exp_neg_mul_sq (b := 1 / 2) (by norm_num)).comp_sub_right m).const_mul m
  refine (h1.add h2).congr (Eventually.of_forall fun x => ?_)
  simp only [Pi.add_apply]; ring

private theorem folded_kernel (m : ℝ) :
    ∫ x : ℝ, |x| * Real.exp (-(1 / 2) * (x - m) ^ 2) = 2 * (Real.exp (-(1 / 2) * m ^ 2) + m * gk m) := by
  have hi : Integrable fun x : ℝ => |x| * Real.exp (-(1 / 2) * (x - m) ^ 2) := by
    refine (kernel_int m).abs.congr (Eventually.of_forall fun x => ?_)
    simp only [abs_mul, abs_of_pos (Real.exp_pos _)]
  rw [← intervalIntegral.integral_Iic_add_Ioi hi.integrableOn hi.integrableOn (b := 0)]
  have t1 : Tendsto (prim m) atTop (𝓝 (-0 + m * √(Real.pi / 2))) :=
    (exp_top m).neg.add ((gk_top.comp (tendsto_atTop_add_const_right _ _ tendsto_id)).const_mul m)
  have t2 : Tendsto (prim m) atBot (𝓝 (-0 + m * -√(Real.pi / 2))) :=
    (exp_bot m).neg.add ((gk_bot.comp (tendsto_atBot_add_const_right _ _ tendsto_id)).const_mul m)
  have p1 := integral_Ioi_of_hasDerivAt_of_tendsto' (a := 0) (fun x _ => prim_deriv m x) (kernel_int m).integrableOn t1
  have p2 := integral_Iic_of_hasDerivAt_of_tendsto' (a := 0) (fun x _ => prim_deriv m x) (kernel_int m).integrableOn t2
  have e1 : ∫ x in Ioi (0 : ℝ), |x| * Real.exp (-(1 / 2) * (x - m) ^ 2) =
      ∫ x in Ioi (0 : ℝ), x * Real.exp (-(1 / 2) * (x - m) ^ 2) :=
    setIntegral_congr_fun measurableSet_Ioi fun x hx => by simp only [abs_of_pos (show 0 < x from hx)]
  have e2 : ∫ x in Iic (0 : ℝ), |x| * Real.exp (-(1 / 2) * (x - m) ^ 2) =
      -∫ x in Iic (0 : ℝ), x * Real.exp (-(1 / 2) * (x - m) ^ 2) := by
    rw [← MeasureTheory.integral_neg]
    exact setIntegral_congr_fun measurableSet_Iic fun x hx => by
      simp only [abs_of_nonpos (show x ≤ 0 from hx)]; ring
  rw [e1, e2, p1, p2]
  simp only [prim, zero_sub, gk_neg, neg_sq]
  ring

/-- `E|m + Z|` -/
private noncomputable def folded (m : ℝ) : ℝ := √(2 / Real.pi) * (Real.exp (-(1 / 2) * m ^ 2) + m * gk m)

private theorem folded_mean (m : ℝ) : ∫ x, |x| ∂(gaussianReal m 1) = folded m := by
  rw [integral_gaussianReal_eq_integral_smul (by norm_num)]
  have e : ∀ x : ℝ, gaussianPDFReal m 1 x • |x| = (√(2 * Real.pi))⁻¹ * (|x| * Real.exp (-(1 / 2) * (x - m) ^ 2)) := by
    intro x
    rw [gaussianPDFReal, smul_eq_mul]
    simp only [NNReal.coe_one, mul_one]
    rw [show -(x - m) ^ 2 / 2 = -(1 / 2) * (x - m) ^ 2 by ring]; ring
  simp only [e]
  rw [MeasureTheory.integral_const_mul, folded_kernel, folded]
  have hs : √(2 / Real.pi) = (√(2 * Real.pi))⁻¹ * 2 := by
    rw [show 2 / Real.pi = (2 * Real.pi)⁻¹ * 2 ^ 2 by have := Real.pi_ne_zero; field_simp,
      Real.sqrt_mul (by positivity), Real.sqrt_inv, Real.sqrt_sq (by norm_num)]
  rw [hs]; ring

/-! ## projections of a normal vector -/

private theorem projection (nu t : ℝ) :
    ((gaussianReal nu 1).prod (gaussianReal 0 1)).map (fun p : ℝ × ℝ => p.1 * Real.cos t + p.2 * Real.sin t) =
      gaussianReal (nu * Real.cos t) 1 := by
  have h := Measure.map_prod_map (gaussianReal nu 1) (gaussianReal 0 1) (f := fun x => Real.cos t * x)
    (g := fun x => Real.sin t * x) (by fun_prop) (by fun_prop)
  rw [gaussianReal_map_const_mul, gaussianReal_map_const_mul] at h
  have hc := gaussianReal_conv_gaussianReal (m₁ := Real.cos t * nu) (m₂ := Real.sin t * 0)
    (v₁ := NNReal.mk (Real.cos t ^ 2) (sq_nonneg _) * 1) (v₂ := NNReal.mk (Real.sin t ^ 2) (sq_nonneg _) * 1)
  rw [Measure.conv, h, Measure.map_map (by fun_prop) (by fun_prop)] at hc
  convert hc using 2
  · funext p; simp only [Function.comp_apply, Prod.map]; ring
  · ring
  · ext; push_cast; simp

/-- the mean of a Rice law as an integral over the directions -/
private theorem rice_directions (nu : ℝ) :
    4 * mean (riceLaw nu 1) = ∫ t in (0 : ℝ)..(2 * Real.pi), folded (nu * Real.cos t) := by
  have h1 : Real.toNNReal (1 ^ 2) = 1 := by simp
  unfold mean riceLaw
  rw [h1, integral_map dist_meas.aemeasurable (by fun_prop), ← MeasureTheory.integral_const_mul]
  have e1 : ∀ p : ℝ × ℝ, 4 * √(p.1 ^ 2 + p.2 ^ 2) = ∫ t in Ioc (0 : ℝ) (2 * Real.pi), |p.1 * Real.cos t + p.2 * Real.sin t| := by
    intro p
    rw [← length_eq, intervalIntegral.integral_of_le (by positivity)]
  simp only [e1]
  rw [intervalIntegral.integral_of_le (by positivity)]
  rw [integral_integral_swap]
  · refine integral_congr_ae (Eventually.of_forall fun t => ?_)
    simp only
    rw [← folded_mean, ← projection nu t, integral_map (by fun_prop) (by fun_prop)]
  · have hG : ∀ m : ℝ, Integrable (fun x : ℝ => |x|) (gaussianReal m 1) := fun m =>
      (memLp_id_gaussianReal (μ := m) (v := 1) 1).integrable (le_refl _) |>.abs
    have hb : Integrable (fun p : ℝ × ℝ => |p.1| + |p.2|) ((gaussianReal nu 1).prod (gaussianReal 0 1)) :=
      ((hG nu).comp_fst _).add ((hG 0).comp_snd _)
    have hb2 := hb.comp_fst (volume.restrict (Ioc (0 : ℝ) (2 * Real.pi)))
    refine hb2.mono' (by unfold Function.uncurry; fun_prop) (Eventually.of_forall fun q => ?_)
    simp only [Function.uncurry, Real.norm_eq_abs, abs_abs]
    refine (abs_add_le _ _).trans ?_
    rw [abs_mul, abs_mul]
    have c := Real.abs_cos_le_one q.2
    have s := Real.abs_sin_le_one q.2
    nlinarith [abs_nonneg q.1.1, abs_nonneg q.1.2]

/-! ## the directions -/

private theorem by_parts (nu : ℝ) : ∫ t in (0 : ℝ)..(2 * Real.pi), Real.cos t * gk (nu * Real.cos t) =
    nu * ∫ t in (0 : ℝ)..(2 * Real.pi), Real.sin t ^ 2 * Real.exp (-(1 / 2) * (nu * Real.cos t) ^ 2) := by
  have gc : Continuous gk := continuous_iff_continuousAt.2 fun x => (gk_deriv x).continuousAt
  have hd : ∀ t : ℝ, HasDerivAt (fun t => Real.sin t * gk (nu * Real.cos t))
      (Real.cos t * gk (nu * Real.cos t) - nu * (Real.sin t ^ 2 * Real.exp (-(1 / 2) * (nu * Real.cos t) ^ 2))) t := by
    intro t
    have h := (Real.hasDerivAt_sin t).mul ((gk_deriv (nu * Real.cos t)).comp t ((Real.hasDerivAt_cos t).const_mul nu))
    refine h.congr_deriv ?_
    simp only [Function.comp_apply]; ring
  have h := integral_eq_sub_of_hasDerivAt (a := 0) (b := 2 * Real.pi) (fun t _ => hd t)
    (Continuous.intervalIntegrable (by fun_prop) _ _)
  rw [intervalIntegral.integral_sub (Continuous.intervalIntegrable (by fun_prop) _ _)
    (Continuous.intervalIntegrable (by fun_prop) _ _), intervalIntegral.integral_const_mul] at h
  simp only [Real.sin_zero, Real.sin_two_pi, zero_mul, sub_zero] at h
  linarith

private theorem half_turn {k : ℝ → ℝ} (hk : Continuous k) :
    ∫ t in (0 : ℝ)..(2 * Real.pi), k (Real.cos (2 * t)) = 2 * ∫ t in (0 : ℝ)..Real.pi, k (-Real.cos t) := by
  have hc : Continuous fun t => k (Real.cos t) := hk.comp Real.continuous_cos
  have hi : ∀ a b, IntervalIntegrable (fun t => k (Real.cos t)) volume a b := fun a b => hc.intervalIntegrable a b
  have hp : Function.Periodic (fun t => k (Real.cos t)) (2 * Real.pi) := fun t => by simp only [Real.cos_add_two_pi]
  have e1 : ∫ t in (0 : ℝ)..(2 * Real.pi), k (Real.cos (2 * t)) = ∫ t in (0 : ℝ)..(2 * Real.pi), k (Real.cos t) := by
    rw [intervalIntegral.integral_comp_mul_left (fun t => k (Real.cos t)) (by norm_num : (2 : ℝ) ≠ 0)]
    have h := hp.intervalIntegral_add_eq (2 * Real.pi) 0
    rw [zero_add] at h
    rw [mul_zero, ← integral_add_adjacent_intervals (hi 0 (2 * Real.pi)) (hi _ _),
      show 2 * (2 * Real.pi) = 2 * Real.pi + 2 * Real.pi by ring, h, smul_eq_mul]
    ring
  have e2 : ∫ t in Real.pi..(2 * Real.pi), k (Real.cos t) = ∫ t in (0 : ℝ)..Real.pi, k (-Real.cos t) := by
    have h := intervalIntegral.integral_comp_add_right (a := 0) (b := Real.pi) (fun t => k (Real.cos t)) Real.pi
    simp only [Real.cos_add_pi, zero_add] at h
    rw [h]; congr 1; ring
  have e3 : ∫ t in (0 : ℝ)..Real.pi, k (Real.cos t) = ∫ t in (0 : ℝ)..Real.pi, k (-Real.cos t) := by
    have h := intervalIntegral.integral_comp_sub_left (a := 0) (b := Real.pi) (fun t => k (Real.cos t)) Real.pi
    simp only [Real.cos_pi_sub, sub_self, sub_zero] at h
    exact h.symm
  rw [e1, ← integral_add_adjacent_intervals (hi 0 Real.pi) (hi _ _), e2, e3]; ring

/-- the mean of the Rice law with unit scale -/
theorem rice_mean_bessel (nu : ℝ) : mean (riceLaw nu 1) =
    √(Real.pi / 8) * Real.exp (-(nu ^ 2) / 4) *
      ((2 + nu ^ 2) * besselI0 (nu ^ 2 / 4) + nu ^ 2 * besselI1 (nu ^ 2 / 4)) := by
  have gc : Continuous gk := continuous_iff_continuousAt.2 fun x => (gk_deriv x).continuousAt
  have h := rice_directions nu
  have e1 : ∫ t in (0 : ℝ)..(2 * Real.pi), folded (nu * Real.cos t) = √(2 / Real.pi) *
      ((∫ t in (0 : ℝ)..(2 * Real.pi), Real.exp (-(1 / 2) * (nu * Real.cos t) ^ 2)) +
        nu * ∫ t in (0 : ℝ)..(2 * Real.pi), Real.cos t * gk (nu * Real.cos t)) := by
    rw [← intervalIntegral.integral_const_mul, ← intervalIntegral.integral_add
      (Continuous.intervalIntegrable (by fun_prop) _ _) (Continuous.intervalIntegrable (by fun_prop) _ _),
      ← intervalIntegral.integral_const_mul]
    refine integral_congr fun t _ => ?_
    simp only [folded]; ring
  have e2 : (∫ t in (0 : ℝ)..(2 * Real.pi), Real.exp (-(1 / 2) * (nu * Real.cos t) ^ 2)) +
        nu * (nu * ∫ t in (0 : ℝ)..(2 * Real.pi), Real.sin t ^ 2 * Real.exp (-(1 / 2) * (nu * Real.cos t) ^ 2)) =
      ∫ t in (0 : ℝ)..(2 * Real.pi), Real.exp (-(nu ^ 2) / 4) *
        ((1 + nu ^ 2 / 2 - nu ^ 2 / 2 * Real.cos (2 * t)) * Real.exp (-(nu ^ 2 / 4) * Real.cos (2 * t))) := by
    rw [← mul_assoc, ← intervalIntegral.integral_const_mul, ← intervalIntegral.integral_add
      (Continuous.intervalIntegrable (by fun_prop) _ _) (Continuous.intervalIntegrable (by fun_prop) _ _)]
    refine integral_congr fun t _ => ?_
    have c2 := Real.cos_sq t
    have s2 : Real.sin t ^ 2 = 1 / 2 - Real.cos (2 * t) / 2 := by rw [Real.sin_sq, c2]; ring
    have x : Real.exp (-(1 / 2) * (nu * Real.cos t) ^ 2) =
        Real.exp (-(nu ^ 2) / 4) * Real.exp (-(nu ^ 2 / 4) * Real.cos (2 * t)) := by
      rw [← Real.exp_add]; congr 1; rw [mul_pow, c2]; ring
    simp only [x, s2]; ring
  have e3 := half_turn (k := fun c => Real.exp (-(nu ^ 2) / 4) *
        ((1 + nu ^ 2 / 2 - nu ^ 2 / 2 * c) * Real.exp (-(nu ^ 2 / 4) * c))) (by fun_prop)
  have e4 : ∫ t in (0 : ℝ)..Real.pi, Real.exp (-(nu ^ 2) / 4) *
        ((1 + nu ^ 2 / 2 - nu ^ 2 / 2 * -Real.cos t) * Real.exp (-(nu ^ 2 / 4) * -Real.cos t)) =
      Real.exp (-(nu ^ 2) / 4) * ((1 + nu ^ 2 / 2) * (Real.pi * besselI0 (nu ^ 2 / 4)) +
        nu ^ 2 / 2 * (Real.pi * besselI1 (nu ^ 2 / 4))) := by
    have c : ∀ z, Real.pi * (1 / Real.pi * z) = z := fun z => by have := Real.pi_ne_zero; field_simp
    rw [besselI0, besselI1, c, c, ← intervalIntegral.integral_const_mul, ← intervalIntegral.integral_const_mul,
      ← intervalIntegral.integral_add (Continuous.intervalIntegrable (by fun_prop) _ _)
        (Continuous.intervalIntegrable (by fun_prop) _ _), ← intervalIntegral.integral_const_mul]
    refine integral_congr fun t _ => ?_
    simp only [mul_neg, neg_mul, neg_neg]; ring
  rw [e1, by_parts, e2, e3, e4] at h
  have hs : √(2 / Real.pi) * Real.pi = 4 * √(Real.pi / 8) := by
    rw [show 2 / Real.pi = (4 / Real.pi) ^ 2 * (Real.pi / 8) by have := Real.pi_ne_zero; field_simp; norm_num,
      Real.sqrt_mul (by positivity), Real.sqrt_sq (by have := Real.pi_pos; positivity)]
    have := Real.pi_ne_zero
    field_simp
  linear_combination h / 4 + (Real.exp (-(nu ^ 2) / 4) * ((1 + nu ^ 2 / 2) * besselI0 (nu ^ 2 / 4) +
    nu ^ 2 / 2 * besselI1 (nu ^ 2 / 4)) / 2) * hs

/-! ## the density -/

private theorem turn (y : ℝ) : ∫ t in (-Real.pi)..Real.pi, Real.exp (y * Real.cos t) = 2 * Real.pi * besselI0 y := by
  have hi : ∀ a b, IntervalIntegrable (fun t => Real.exp (y * Real.cos t)) volume a b := fun a b =>
    Continuous.intervalIntegrable (by fun_prop) a b
  have h := intervalIntegral.integral_comp_neg (a := 0) (b := Real.pi) fun t => Real.exp (y * Real.cos t)
  simp only [Real.cos_neg, neg_zero] at h
  rw [← integral_add_adjacent_intervals (hi _ 0) (hi _ _), ← h, besselI0]
  have := Real.pi_ne_zero
  field_simp
  ring

theorem besselI0_pos (y : ℝ) : 0 < besselI0 y := by
  refine mul_pos (by have := Real.pi_pos; positivity) ?_
  exact intervalIntegral.intervalIntegral_pos_of_pos (Continuous.intervalIntegrable (by fun_prop) _ _)
    (fun t => Real.exp_pos _) Real.pi_pos

theorem besselI0_cont : Continuous besselI0 := by
  unfold besselI0
  refine continuous_const.mul ?_
  exact intervalIntegral.continuous_parametric_intervalIntegral_of_continuous' (by unfold Function.uncurry; fun_prop) _ _

theorem besselI1_cont : Continuous besselI1 := by
  unfold besselI1
  refine continuous_const.mul ?_
  exact intervalIntegral.continuous_parametric_intervalIntegral_of_continuous' (by unfold Function.uncurry; fun_prop) _ _

theorem ricePdf_meas (nu sigma : ℝ) : Measurable (ricePdf nu sigma) := by
  unfold ricePdf
  refine Measurable.ite measurableSet_Ioi ?_ measurable_const
  have := besselI0_cont
  exact Continuous.measurable (by fun_prop)

private theorem polar_kernel {nu sigma : ℝ} (hs : 0 < sigma) (r t : ℝ) :
    gaussianPDFReal nu (Real.toNNReal (sigma ^ 2)) (r * Real.cos t) * gaussianPDFReal 0 (Real.toNNReal (sigma ^ 2)) (r * Real.sin t) =
      1 / (2 * Real.pi * sigma ^ 2) * Real.exp (-(r ^ 2 + nu ^ 2) / (2 * sigma ^ 2)) *
        Real.exp (r * nu / sigma ^ 2 * Real.cos t) := by
  simp only [gaussianPDFReal, Real.coe_toNNReal _ (sq_nonneg sigma)]
  have h1 : √(2 * Real.pi * sigma ^ 2) * √(2 * Real.pi * sigma ^ 2) = 2 * Real.pi * sigma ^ 2 :=
    Real.mul_self_sqrt (by have := Real.pi_pos; positivity)
  have h2 : -(r * Real.cos t - nu) ^ 2 / (2 * sigma ^ 2) + -(r * Real.sin t - 0) ^ 2 / (2 * sigma ^ 2) =
      -(r ^ 2 + nu ^ 2) / (2 * sigma ^ 2) + r * nu / sigma ^ 2 * Real.cos t := by
    have := Real.sin_sq_add_cos_sq t
    field_simp
    linear_combination (-r ^ 2) * this
  rw [mul_mul_mul_comm, ← mul_inv, h1, ← Real.exp_add, h2, Real.exp_add]
  ring

/-- the distance has the documented density -/
theorem rice_density (nu : ℝ) {sigma : ℝ} (hs : 0 < sigma) :
    riceLaw nu sigma = volume.withDensity fun x => ENNReal.ofReal (ricePdf nu sigma x) := by
  set v := Real.toNNReal (sigma ^ 2) with hv
  have hv0 : v ≠ 0 := by rw [hv]; positivity
  refine Measure.ext_of_lintegral _ fun f hf => ?_
  unfold riceLaw
  rw [lintegral_map hf dist_meas, ← hv, gaussianReal_of_var_ne_zero _ hv0, gaussianReal_of_var_ne_zero _ hv0,
    prod_withDensity (by fun_prop) (by fun_prop), lintegral_withDensity_eq_lintegral_mul _ (by fun_prop) (by fun_prop),
    lintegral_withDensity_eq_lintegral_mul _ (ricePdf_meas nu sigma).ennreal_ofReal hf, ← Measure.volume_eq_prod,
    ← lintegral_comp_polarCoord_symm, polarCoord_target]
  have e : ∀ p ∈ Ioi (0 : ℝ) ×ˢ Ioo (-Real.pi) Real.pi, ENNReal.ofReal p.1 •
        ((fun z : ℝ × ℝ => gaussianPDF nu v z.1 * gaussianPDF 0 v z.2) * fun p : ℝ × ℝ => f (√(p.1 ^ 2 + p.2 ^ 2)))
          (polarCoord.symm p) =
      (f p.1 * ENNReal.ofReal (p.1 / (2 * Real.pi * sigma ^ 2) * Real.exp (-(p.1 ^ 2 + nu ^ 2) / (2 * sigma ^ 2)))) *
        ENNReal.ofReal (Real.exp (p.1 * nu / sigma ^ 2 * Real.cos p.2)) := by
    intro p hp
    have h0 : 0 < p.1 := hp.1
    have hr : √((p.1 * Real.cos p.2) ^ 2 + (p.1 * Real.sin p.2) ^ 2) = p.1 := by
      rw [show (p.1 * Real.cos p.2) ^ 2 + (p.1 * Real.sin p.2) ^ 2 = p.1 ^ 2 by
        have := Real.sin_sq_add_cos_sq p.2
        linear_combination p.1 ^ 2 * this]
      exact Real.sqrt_sq h0.le
    simp only [polarCoord_symm_apply, Pi.mul_apply, hr, gaussianPDF, smul_eq_mul]
    rw [← ENNReal.ofReal_mul (gaussianPDFReal_nonneg _ _ _), polar_kernel hs, ← mul_assoc, ← ENNReal.ofReal_mul h0.le,
      mul_comm _ (f p.1), mul_assoc (f p.1), ← ENNReal.ofReal_mul (by have := Real.pi_pos; positivity)]
    congr 2; ring
  have inner : ∀ r : ℝ, ∫⁻ t in Ioo (-Real.pi) Real.pi, ENNReal.ofReal (Real.exp (r * nu / sigma ^ 2 * Real.cos t)) =
      ENNReal.ofReal (2 * Real.pi * besselI0 (r * nu / sigma ^ 2)) := by
    intro r
    rw [← turn, intervalIntegral.integral_of_le (by linarith [Real.pi_pos]), integral_Ioc_eq_integral_Ioo,
      ofReal_integral_eq_lintegral_ofReal]
    · exact (Continuous.integrableOn_Icc (by fun_prop)).mono_set Ioo_subset_Icc_self
    · exact Eventually.of_forall fun t => (Real.exp_pos _).le
  rw [setLIntegral_congr_fun (measurableSet_Ioi.prod measurableSet_Ioo) e, Measure.volume_eq_prod, ← Measure.prod_restrict,
    lintegral_prod _ (by fun_prop)]
  have e2 : ∀ x : ℝ, ((fun x => ENNReal.ofReal (ricePdf nu sigma x)) * f) x = (Ioi (0 : ℝ)).indicator (fun r =>
      (f r * ENNReal.ofReal (r / (2 * Real.pi * sigma ^ 2) * Real.exp (-(r ^ 2 + nu ^ 2) / (2 * sigma ^ 2)))) *
        ENNReal.ofReal (2 * Real.pi * besselI0 (r * nu / sigma ^ 2))) x := by
    intro x
    by_cases hx : 0 < x
    · rw [indicator_of_mem (show x ∈ Ioi (0 : ℝ) from hx), Pi.mul_apply, ricePdf, if_pos hx, mul_comm _ (f x), mul_assoc (f x),
        ← ENNReal.ofReal_mul (by have := Real.pi_pos; positivity)]
      congr 2
      have := Real.pi_ne_zero
      field_simp
    · rw [indicator_of_notMem (show x ∉ Ioi (0 : ℝ) from hx), Pi.mul_apply, ricePdf, if_neg hx]; simp
  simp only [e2]
  rw [lintegral_indicator measurableSet_Ioi]
  refine lintegral_congr fun r => ?_
  rw [lintegral_const_mul _ (by fun_prop), inner]

/-! ## which means and deviations occur -/

theorem besselI0_zero : besselI0 0 = 1 := by
  simp [besselI0, Real.pi_ne_zero]

theorem rice_mean_cont : Continuous fun nu => mean (riceLaw nu 1) := by
  have h : (fun nu => mean (riceLaw nu 1)) = fun nu => √(Real.pi / 8) * Real.exp (-(nu ^ 2) / 4) *
      ((2 + nu ^ 2) * besselI0 (nu ^ 2 / 4) + nu ^ 2 * besselI1 (nu ^ 2 / 4)) := funext rice_mean_bessel
  rw [h]
  have := besselI0_cont
  have := besselI1_cont
  fun_prop

theorem rice_mean_zero : mean (riceLaw 0 1) ^ 2 = Real.pi / 2 := by
  rw [rice_mean_bessel]
  simp only [ne_eq, OfNat.ofNat_ne_zero, not_false_eq_true, zero_pow, neg_zero, zero_div, Real.exp_zero, mul_one, add_zero,
    besselI0_zero, zero_mul]
  rw [mul_pow, Real.sq_sqrt (by have := Real.pi_pos; positivity)]
  ring

private theorem four_sub_pi : 0 < 4 - Real.pi := by linarith [Real.pi_lt_d2]

/-- every mean and deviation whose ratio is at least that of a Rayleigh law are those of a Rice law -/
theorem rice_attained {m s : ℝ} (hm : 0 < m) (hs : 0 < s) (hr : Real.pi / (4 - Real.pi) ≤ (m / s) ^ 2) :
    ∃ nu sigma, 0 ≤ nu ∧ 0 < sigma ∧ mean (riceLaw nu sigma) = m ∧ central (riceLaw nu sigma) 2 = s ^ 2 := by
  have hp := Real.pi_pos
  have h4 := four_sub_pi
  rw [div_pow, div_le_div_iff₀ h4 (by positivity)] at hr
  set q : ℝ → ℝ := fun t => mean (riceLaw t 1) ^ 2 * (s ^ 2 + m ^ 2) - m ^ 2 * (2 + t ^ 2) with hq
  have hc : Continuous q := by have := rice_mean_cont; simp only [hq]; fun_prop
  set b := √2 * m / s with hb
  have hb0 : 0 ≤ b := by positivity
  have hb2 : b ^ 2 * s ^ 2 = 2 * m ^ 2 := by
    rw [hb, div_pow, mul_pow, Real.sq_sqrt (by norm_num)]; field_simp
  have q0 : q 0 ≤ 0 := by
    simp only [hq, rice_mean_zero]
    nlinarith
  have q1 : 0 ≤ q b := by
    have h1 : b ^ 2 ≤ mean (riceLaw b 1) ^ 2 := pow_le_pow_left₀ hb0 (rice_mean_ge b 1) 2
    simp only [hq]
    have h2 : b ^ 2 * (s ^ 2 + m ^ 2) ≤ mean (riceLaw b 1) ^ 2 * (s ^ 2 + m ^ 2) :=
      mul_le_mul_of_nonneg_right h1 (by positivity)
    nlinarith
  obtain ⟨t, ht, h0⟩ := intermediate_value_Icc hb0 hc.continuousOn ⟨q0, q1⟩
  have hmt : 0 < mean (riceLaw t 1) := by
    refine lt_of_le_of_ne (rice_mean_nonneg t 1) fun h => ?_
    simp only [hq, ← h] at h0
    have : 0 < m ^ 2 * (2 + t ^ 2) := by positivity
    nlinarith
  set k := mean (riceLaw t 1) with hk
  have hsig : 0 < m / k := by positivity
  have e1 : mean (riceLaw (t * (m / k)) (m / k)) = m := by
    rw [rice_mean_scale _ _ hsig, mul_div_assoc, div_self hsig.ne', mul_one, ← hk]; field_simp
  refine ⟨t * (m / k), m / k, mul_nonneg ht.1 hsig.le, hsig, e1, ?_⟩
  rw [rice_var, e1]
  simp only [hq] at h0
  field_simp
  linarith

/-! ## no other ratios -/

private theorem exp_param {k : ℝ → ℝ} (hk : Continuous k) (y : ℝ) :
    HasDerivAt (fun y => ∫ t in (0 : ℝ)..Real.pi, k t * Real.exp (y * Real.cos t))
      (∫ t in (0 : ℝ)..Real.pi, k t * (Real.cos t * Real.exp (y * Real.cos t))) y := by
  refine (intervalIntegral.hasDerivAt_integral_of_dominated_loc_of_deriv_le
    (F := fun y t => k t * Real.exp (y * Real.cos t)) (F' := fun y t => k t * (Real.cos t * Real.exp (y * Real.cos t)))
    (s := Metric.ball y 1) (bound := fun t => |k t| * Real.exp (|y| + 1)) (Metric.ball_mem_nhds y one_pos) ?_ ?_ ?_ ?_ ?_ ?_).2
  · exact Eventually.of_forall fun x => Continuous.aestronglyMeasurable (by fun_prop)
  · exact Continuous.intervalIntegrable (by fun_prop) _ _
  · exact Continuous.aestronglyMeasurable (by fun_prop)
  · refine Eventually.of_forall fun t _ x hx => ?_
    rw [Real.norm_eq_abs, abs_mul, abs_mul, abs_of_pos (Real.exp_pos _)]
    refine mul_le_mul_of_nonneg_left ?_ (abs_nonneg _)
    have c := Real.abs_cos_le_one t
    have hx' : |x - y| < 1 := by simpa [Real.dist_eq] using hx
    have h1 : |x| ≤ |y| + 1 := by
      have := abs_add_le (x - y) y
      rw [sub_add_cancel] at this
      linarith
    have h2 : x * Real.cos t ≤ |y| + 1 := by
      refine (le_abs_self _).trans ?_
      rw [abs_mul]
      nlinarith [abs_nonneg x, abs_nonneg (Real.cos t)]
    calc |Real.cos t| * Real.exp (x * Real.cos t) ≤ 1 * Real.exp (|y| + 1) := by gcongr
      _ = _ := one_mul _
  · exact Continuous.intervalIntegrable (by fun_prop) _ _
  · refine Eventually.of_forall fun t _ x _ => ?_
    have h := (((hasDerivAt_id x).mul_const (Real.cos t)).exp).const_mul (k t)
    refine h.congr_deriv ?_
    simp only [id_eq, one_mul]; ring

private noncomputable def bS (y : ℝ) : ℝ := 1 / Real.pi * ∫ t in (0 : ℝ)..Real.pi, Real.sin t ^ 2 * Real.exp (y * Real.cos t)

private theorem bS_nonneg (y : ℝ) : 0 ≤ bS y := by
  have := Real.pi_pos
  refine mul_nonneg (by positivity) ?_
  exact intervalIntegral.integral_nonneg this.le fun t _ => by positivity

private theorem bessel_S (y : ℝ) : besselI1 y = y * bS y := by
  have hd : ∀ t : ℝ, HasDerivAt (fun t => Real.sin t * Real.exp (y * Real.cos t))
      (Real.cos t * Real.exp (y * Real.cos t) - y * (Real.sin t ^ 2 * Real.exp (y * Real.cos t))) t := by
    intro t
    have h := (Real.hasDerivAt_sin t).mul (((Real.hasDerivAt_cos t).const_mul y).exp)
    refine h.congr_deriv ?_
    ring
  have h := integral_eq_sub_of_hasDerivAt (a := 0) (b := Real.pi) (fun t _ => hd t)
    (Continuous.intervalIntegrable (by fun_prop) _ _)
  rw [intervalIntegral.integral_sub (Continuous.intervalIntegrable (by fun_prop) _ _)
    (Continuous.intervalIntegrable (by fun_prop) _ _), intervalIntegral.integral_const_mul] at h
  simp only [Real.sin_zero, Real.sin_pi, zero_mul, sub_zero] at h
  rw [besselI1, bS, sub_eq_zero.1 h]; ring

theorem besselI0_deriv (y : ℝ) : HasDerivAt besselI0 (besselI1 y) y := by
  have h := (exp_param (k := fun _ => 1) continuous_const y).const_mul (1 / Real.pi)
  simp only [one_mul] at h
  exact h

private theorem besselI1_deriv (y : ℝ) : HasDerivAt besselI1 (besselI0 y - bS y) y := by
  have h := (exp_param (k := Real.cos) Real.continuous_cos y).const_mul (1 / Real.pi)
  refine h.congr_deriv ?_
  rw [besselI0, bS, ← mul_sub, ← intervalIntegral.integral_sub (Continuous.intervalIntegrable (by fun_prop) _ _)
    (Continuous.intervalIntegrable (by fun_prop) _ _)]
  congr 1
  refine integral_congr fun t _ => ?_
  simp only [Real.sin_sq]; ring

/-- the mean of the Rice law, up to a constant, in terms of `y = nu² / 4` -/
private noncomputable def bP (y : ℝ) : ℝ := Real.exp (-y) * ((1 + 2 * y) * besselI0 y + 2 * y * besselI1 y)

private theorem bP_deriv (y : ℝ) : HasDerivAt bP (Real.exp (-y) * (besselI0 y + besselI1 y)) y := by
  have h1 : HasDerivAt (fun y : ℝ => 1 + 2 * y) 2 y := by
    simpa using ((hasDerivAt_id y).const_mul 2).const_add 1
  have h2 : HasDerivAt (fun y : ℝ => 2 * y) 2 y := by simpa using (hasDerivAt_id y).const_mul 2
  have h := ((hasDerivAt_id y).neg.exp).mul ((h1.mul (besselI0_deriv y)).add (h2.mul (besselI1_deriv y)))
  refine h.congr_deriv ?_
  have := bessel_S y
  simp only [Pi.neg_apply, id_eq, Pi.add_apply, Pi.mul_apply]
  linear_combination (2 * Real.exp (-y)) * this

private theorem bP_ge {y : ℝ} (hy : 0 ≤ y) : 1 + 2 * y ≤ bP y ^ 2 := by
  have hd : ∀ x ∈ Ici (0 : ℝ), HasDerivAt (fun y => bP y ^ 2 / (1 + 2 * y))
      (2 * bP x * Real.exp (-x) * besselI1 x / (1 + 2 * x) ^ 2) x := by
    intro x hx
    have hx : 0 ≤ x := hx
    have h1 : HasDerivAt (fun y : ℝ => 1 + 2 * y) 2 x := by
      simpa using ((hasDerivAt_id x).const_mul 2).const_add 1
    have h := ((bP_deriv x).pow 2).div h1 (by positivity)
    refine h.congr_deriv ?_
    simp only [Nat.cast_ofNat, Nat.add_one_sub_one, pow_one, Pi.pow_apply]
    congr 1
    have : bP x = Real.exp (-x) * ((1 + 2 * x) * besselI0 x + 2 * x * besselI1 x) := rfl
    linear_combination (-2 * bP x) * this
  have hI1 : ∀ x, 0 ≤ x → 0 ≤ besselI1 x := fun x hx => by rw [bessel_S]; exact mul_nonneg hx (bS_nonneg x)
  have hP : ∀ x, 0 ≤ x → 0 ≤ bP x := fun x hx => by
    have := besselI0_pos x
    have := hI1 x hx
    unfold bP; positivity
  have hmono : MonotoneOn (fun y => bP y ^ 2 / (1 + 2 * y)) (Ici 0) := by
    refine monotoneOn_of_deriv_nonneg (convex_Ici 0) (fun x hx => (hd x hx).continuousAt.continuousWithinAt)
      (fun x hx => (hd x (interior_subset hx)).differentiableAt.differentiableWithinAt) fun x hx => ?_
    rw [(hd x (interior_subset hx)).deriv]
    have hx : 0 ≤ x := interior_subset hx
    have := hP x hx
    have := hI1 x hx
    positivity
  have h := hmono (show (0 : ℝ) ∈ Ici 0 by simp) (show y ∈ Ici (0 : ℝ) from hy) hy
  have h0 : bP 0 = 1 := by simp [bP, besselI0_zero]
  simp only [h0, mul_zero, add_zero, one_pow, div_one] at h
  rwa [one_le_div (by positivity)] at h

/-- no Rice law has a smaller ratio than the Rayleigh laws -/
theorem rice_ratio_ge (nu : ℝ) {sigma : ℝ} (hs : 0 < sigma) :
    Real.pi * central (riceLaw nu sigma) 2 ≤ (4 - Real.pi) * mean (riceLaw nu sigma) ^ 2 := by
  rw [rice_var]
  suffices h : Real.pi / 4 * (nu ^ 2 + 2 * sigma ^ 2) ≤ mean (riceLaw nu sigma) ^ 2 by nlinarith
  rw [rice_mean_scale _ _ hs, rice_mean_bessel]
  set t := nu / sigma with ht
  have hn : nu = t * sigma := by rw [ht]; field_simp
  have h := bP_ge (y := t ^ 2 / 4) (by positivity)
  have e : √(Real.pi / 8) * Real.exp (-(t ^ 2) / 4) * ((2 + t ^ 2) * besselI0 (t ^ 2 / 4) + t ^ 2 * besselI1 (t ^ 2 / 4)) =
      √(Real.pi / 8) * (2 * bP (t ^ 2 / 4)) := by
    rw [bP, show -(t ^ 2 / 4) = -(t ^ 2) / 4 by ring]; ring
  have hp := Real.pi_pos
  rw [e, hn, mul_pow, mul_pow, mul_pow, mul_pow 2, Real.sq_sqrt (by positivity)]
  have h2 : 0 < Real.pi / 2 * sigma ^ 2 := by positivity
  nlinarith

end Verif.Spec
