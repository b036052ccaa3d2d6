import Verif.Spec.Circular
import Mathlib.MeasureTheory.Integral.IntervalIntegral.IntegrationByParts
import Mathlib.MeasureTheory.Integral.DominatedConvergence
import Mathlib.Analysis.Calculus.ParametricIntervalIntegral
import Mathlib.Tactic

/-!
# Bounds for the quotient of the Bessel functions of orders one and zero
-/

namespace Verif.Spec.Ratio
open MeasureTheory

private theorem int0 (k a b : ℝ) : IntervalIntegrable (fun t => Real.exp (k * Real.cos t)) volume a b :=
  Continuous.intervalIntegrable (by fun_prop) a b
private theorem int1 (k a b : ℝ) : IntervalIntegrable (fun t => Real.cos t * Real.exp (k * Real.cos t)) volume a b :=
  Continuous.intervalIntegrable (by fun_prop) a b
private theorem int2 (k a b : ℝ) : IntervalIntegrable (fun t => Real.sin t ^ 2 * Real.exp (k * Real.cos t)) volume a b :=
  Continuous.intervalIntegrable (by fun_prop) a b

theorem pos0 (k : ℝ) : 0 < besselI0 k := by
  refine mul_pos (by have := Real.pi_pos; positivity) ?_
  exact intervalIntegral.intervalIntegral_pos_of_pos (int0 k _ _) (fun t => Real.exp_pos _) Real.pi_pos

theorem cont : Continuous fun k => besselI1 k / besselI0 k := by
  refine Continuous.div ?_ ?_ fun k => (pos0 k).ne'
  · unfold besselI1
    refine continuous_const.mul ?_
    exact intervalIntegral.continuous_parametric_intervalIntegral_of_continuous' (by unfold Function.uncurry; fun_prop) _ _
  · unfold besselI0
    refine continuous_const.mul ?_
    exact intervalIntegral.continuous_parametric_intervalIntegral_of_continuous' (by unfold Function.uncurry; fun_prop) _ _

/-- integration by parts -/
private theorem parts (k : ℝ) : k * (1 / Real.pi * ∫ t in (0 : ℝ)..Real.pi, Real.sin t ^ 2 * Real.exp (k * Real.cos t)) = besselI1 k := by
  have hd : ∀ t : ℝ, HasDerivAt (fun t => Real.sin t * Real.exp (k * Real.cos t))
      (Real.cos t * Real.exp (k * Real.cos t) - k * (Real.sin t ^ 2 * Real.exp (k * Real.cos t))) t := by
    intro t
    have h := (Real.hasDerivAt_sin t).mul ((Real.hasDerivAt_cos t).const_mul k).exp
    refine h.congr_deriv ?_
    ring
  have h := intervalIntegral.integral_eq_sub_of_hasDerivAt (a := 0) (b := Real.pi) (fun t _ => hd t)
    ((int1 k _ _).sub ((int2 k _ _).const_mul k))
  rw [intervalIntegral.integral_sub (int1 k _ _) ((int2 k _ _).const_mul k), intervalIntegral.integral_const_mul] at h
  simp only [Real.sin_pi, Real.sin_zero, zero_mul, sub_zero] at h
  unfold besselI1
  rw [sub_eq_zero.1 h]
  ring

theorem one_le (k : ℝ) : 1 ≤ besselI0 k := by
  have h : ∫ t in (0 : ℝ)..Real.pi, (k * Real.cos t + 1) ≤ ∫ t in (0 : ℝ)..Real.pi, Real.exp (k * Real.cos t) :=
    intervalIntegral.integral_mono_on Real.pi_pos.le (Continuous.intervalIntegrable (by fun_prop) _ _) (int0 k _ _)
      fun t _ => Real.add_one_le_exp _
  rw [intervalIntegral.integral_add (Continuous.intervalIntegrable (by fun_prop) _ _) (by simp),
    intervalIntegral.integral_const_mul, integral_cos] at h
  simp only [Real.sin_pi, Real.sin_zero, sub_zero, mul_zero, intervalIntegral.integral_const, smul_eq_mul, mul_one, zero_add] at h
  unfold besselI0
  have := Real.pi_pos
  rw [div_mul_eq_mul_div, one_mul, le_div_iff₀ this, one_mul]
  exact h

theorem le_self {k : ℝ} (hk : 0 ≤ k) : besselI1 k / besselI0 k ≤ k := by
  rw [div_le_iff₀ (pos0 k), ← parts]
  refine mul_le_mul_of_nonneg_left ?_ hk
  unfold besselI0
  refine mul_le_mul_of_nonneg_left ?_ (by have := Real.pi_pos; positivity)
  refine intervalIntegral.integral_mono_on Real.pi_pos.le (int2 k _ _) (int0 k _ _) fun t _ => ?_
  have := Real.exp_pos (k * Real.cos t)
  nlinarith [Real.sin_sq_le_one t]

theorem lt_one (k : ℝ) : besselI1 k / besselI0 k < 1 := by
  rw [div_lt_one (pos0 k)]
  unfold besselI1 besselI0
  refine mul_lt_mul_of_pos_left ?_ (by have := Real.pi_pos; positivity)
  refine intervalIntegral.integral_lt_integral_of_continuousOn_of_le_of_exists_lt Real.pi_pos (by fun_prop) (by fun_prop)
    (fun t _ => ?_) ⟨Real.pi, by constructor <;> linarith [Real.pi_pos], ?_⟩
  · have := Real.exp_pos (k * Real.cos t)
    nlinarith [Real.cos_le_one t]
  · have := Real.exp_pos (k * Real.cos Real.pi)
    rw [Real.cos_pi] at *
    linarith

theorem ge {k : ℝ} (hk : 0 < k) : 1 - 3 / k ≤ besselI1 k / besselI0 k := by
  have hp := Real.pi_pos
  have h : ∫ t in (0 : ℝ)..Real.pi, (Real.exp (k * Real.cos t) - Real.cos t * Real.exp (k * Real.cos t)) ≤
      ∫ t in (0 : ℝ)..Real.pi, (Real.sin t ^ 2 * Real.exp (k * Real.cos t) + 2 / k) := by
    refine intervalIntegral.integral_mono_on hp.le ((int0 k _ _).sub (int1 k _ _)) ((int2 k _ _).add (by simp)) fun t _ => ?_
    rw [Real.sin_sq]
    set c := Real.cos t with hc
    have h1 : c ≤ 1 := Real.cos_le_one t
    have h2 : -1 ≤ c := Real.neg_one_le_cos t
    have he := Real.exp_pos (k * c)
    rcases le_total 0 c with h0 | h0
    · have : 0 ≤ 2 / k := by positivity
      nlinarith [mul_nonneg (mul_nonneg h0 (sub_nonneg.2 h1)) he.le]
    · have h3 := Real.add_one_le_exp (-(k * c))
      have h4 : Real.exp (k * c) * Real.exp (-(k * c)) = 1 := by rw [← Real.exp_add]; simp
      have h5 : -(k * c) * Real.exp (k * c) ≤ 1 := by nlinarith
      have h6 : -c * Real.exp (k * c) ≤ 1 / k := by rw [le_div_iff₀ hk]; linarith
      have h7 : (c ^ 2 - c) * Real.exp (k * c) ≤ 2 * (-c * Real.exp (k * c)) := by nlinarith [mul_nonneg (mul_nonneg (neg_nonneg.2 h0) (by linarith : (0 : ℝ) ≤ 1 + c)) he.le]
      have h8 : 2 / k = 2 * (1 / k) := by ring
      rw [h8]
      nlinarith
  rw [intervalIntegral.integral_sub (int0 k _ _) (int1 k _ _), intervalIntegral.integral_add (int2 k _ _) (by simp)] at h
  simp only [intervalIntegral.integral_const, smul_eq_mul, sub_zero] at h
  have h9 := parts k
  have h10 := one_le k
  have h11 := pos0 k
  have h12 := (div_lt_one h11).1 (lt_one k)
  have e0 : besselI0 k = 1 / Real.pi * ∫ t in (0 : ℝ)..Real.pi, Real.exp (k * Real.cos t) := rfl
  have e1 : besselI1 k = 1 / Real.pi * ∫ t in (0 : ℝ)..Real.pi, Real.cos t * Real.exp (k * Real.cos t) := rfl
  have h13 := mul_le_mul_of_nonneg_left h (by positivity : 0 ≤ 1 / Real.pi)
  rw [mul_sub, ← e0, ← e1, mul_add] at h13
  have h14 : 1 / Real.pi * (Real.pi * (2 / k)) = 2 / k := by field_simp
  rw [h14] at h13
  set S := 1 / Real.pi * ∫ t in (0 : ℝ)..Real.pi, Real.sin t ^ 2 * Real.exp (k * Real.cos t)
  have h15 : S = besselI1 k / k := by rw [← h9]; field_simp
  rw [h15] at h13
  rw [le_div_iff₀ h11]
  have h16 : besselI1 k / k ≤ besselI0 k * (1 / k) := by rw [div_eq_mul_one_div]; exact mul_le_mul_of_nonneg_right h12.le (by positivity)
  have h17 : 1 / k ≤ besselI0 k * (1 / k) := le_mul_of_one_le_left (by positivity) h10
  have e2 : 2 / k = 2 * (1 / k) := by ring
  have e3 : 3 / k = 3 * (1 / k) := by ring
  rw [e2] at h13
  rw [e3]
  nlinarith

end Verif.Spec.Ratio
