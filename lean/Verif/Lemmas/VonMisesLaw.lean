import Verif.Spec.MoreLaws
import Verif.Lemmas.LawBase
import Verif.Lemmas.Bessel
import Verif.Lemmas.QuartileShape
import Mathlib.MeasureTheory.Integral.IntervalIntegral.Periodic
import Mathlib.Tactic

/-!
# The law of VonMises on the interval from `-π` to `π` (C138)
-/

namespace Verif.VMLaw
open MeasureTheory Set Verif.Spec intervalIntegral

theorem cont (mu k : ℝ) : Continuous (vonMisesPdf mu k) := by unfold vonMisesPdf; fun_prop

theorem pos (mu k x : ℝ) : 0 < vonMisesPdf mu k x := by
  have := besselI0_pos k
  have := Real.pi_pos
  unfold vonMisesPdf
  positivity

theorem meas (mu k : ℝ) : Measurable ((Ioc (-Real.pi) Real.pi).indicator (vonMisesPdf mu k)) :=
  (cont mu k).measurable.indicator measurableSet_Ioc

theorem nonneg (mu k x : ℝ) : 0 ≤ (Ioc (-Real.pi) Real.pi).indicator (vonMisesPdf mu k) x :=
  indicator_nonneg (fun x _ => (pos mu k x).le) x

theorem integral_law (mu k : ℝ) (g : ℝ → ℝ) :
    ∫ x, g x ∂vonMisesLaw mu k = ∫ x in (-Real.pi)..Real.pi, g x * vonMisesPdf mu k x := by
  rw [vonMisesLaw, Law.ofPdf_integral (meas mu k) (nonneg mu k), integral_of_le (by linarith [Real.pi_pos]),
    ← MeasureTheory.integral_indicator measurableSet_Ioc]
  congr 1
  funext x
  by_cases hx : x ∈ Ioc (-Real.pi) Real.pi <;> simp [hx]

theorem integrable_law (mu k : ℝ) {g : ℝ → ℝ} (hg : Continuous g) : Integrable g (vonMisesLaw mu k) := by
  rw [vonMisesLaw, Law.ofPdf_integrable (meas mu k) (nonneg mu k)]
  have h : IntegrableOn (fun x => g x * vonMisesPdf mu k x) (Ioc (-Real.pi) Real.pi) :=
    ((hg.mul (cont mu k)).continuousOn.integrableOn_Icc (a := -Real.pi) (b := Real.pi)).mono_set Ioc_subset_Icc_self
  rw [← integrable_indicator_iff measurableSet_Ioc] at h
  refine h.congr (ae_of_all _ fun x => ?_)
  by_cases hx : x ∈ Ioc (-Real.pi) Real.pi <;> simp [hx]

/-- periodic functions may be shifted -/
theorem shift {g : ℝ → ℝ} (hp : Function.Periodic g (2 * Real.pi)) (mu : ℝ) :
    ∫ x in (-Real.pi)..Real.pi, g (x - mu) = ∫ x in (-Real.pi)..Real.pi, g x := by
  rw [integral_comp_sub_right g mu]
  have h := hp.intervalIntegral_add_eq (-Real.pi - mu) (-Real.pi)
  rw [show -Real.pi - mu + 2 * Real.pi = Real.pi - mu by ring, show -Real.pi + 2 * Real.pi = Real.pi by ring] at h
  exact h

theorem even_half {g : ℝ → ℝ} (hc : Continuous g) (he : ∀ x, g (-x) = g x) :
    ∫ x in (-Real.pi)..Real.pi, g x = 2 * ∫ x in (0 : ℝ)..Real.pi, g x := by
  have h := intervalIntegral.integral_comp_neg (a := 0) (b := Real.pi) g
  simp only [he, neg_zero] at h
  rw [← integral_add_adjacent_intervals (hc.intervalIntegrable _ 0) (hc.intervalIntegrable _ _), ← h]
  ring

theorem odd_zero {g : ℝ → ℝ} (he : ∀ x, g (-x) = -g x) : ∫ x in (-Real.pi)..Real.pi, g x = 0 := by
  have h := intervalIntegral.integral_comp_neg (a := -Real.pi) (b := Real.pi) g
  simp only [he, neg_neg, intervalIntegral.integral_neg] at h
  linarith

theorem total (mu k : ℝ) : ∫ x in (-Real.pi)..Real.pi, vonMisesPdf mu k x = 1 := by
  have h := shift (g := fun x => Real.exp (k * Real.cos x)) (fun x => by simp only [Real.cos_add_two_pi]) mu
  have h2 := even_half (g := fun x => Real.exp (k * Real.cos x)) (by fun_prop) fun x => by rw [Real.cos_neg]
  have h0 := besselI0_pos k
  have hpi := Real.pi_pos
  simp only [vonMisesPdf]
  rw [intervalIntegral.integral_div, h, h2]
  rw [div_eq_one_iff_eq (by positivity), besselI0]
  field_simp

theorem prob (mu k : ℝ) : IsProbabilityMeasure (vonMisesLaw mu k) := by
  constructor
  have h1 : ∫ x, (Ioc (-Real.pi) Real.pi).indicator (vonMisesPdf mu k) x = 1 := by
    rw [MeasureTheory.integral_indicator measurableSet_Ioc, ← integral_of_le (by linarith [Real.pi_pos]), total]
  have hi : Integrable ((Ioc (-Real.pi) Real.pi).indicator (vonMisesPdf mu k)) := by
    by_contra hc
    rw [integral_undef hc] at h1
    exact zero_ne_one h1
  rw [vonMisesLaw, ofPdf, withDensity_apply _ MeasurableSet.univ, setLIntegral_univ,
    ← ofReal_integral_eq_lintegral_ofReal hi (ae_of_all _ (nonneg mu k)), h1, ENNReal.ofReal_one]

theorem cos_centred (mu k : ℝ) : ∫ x in (-Real.pi)..Real.pi, Real.cos (x - mu) * vonMisesPdf mu k x = besselI1 k / besselI0 k := by
  have h := shift (g := fun x => Real.cos x * Real.exp (k * Real.cos x)) (fun x => by simp only [Real.cos_add_two_pi]) mu
  have h2 := even_half (g := fun x => Real.cos x * Real.exp (k * Real.cos x)) (by fun_prop) fun x => by rw [Real.cos_neg]
  have h0 := besselI0_pos k
  have hpi := Real.pi_pos
  simp only [vonMisesPdf, ← mul_div_assoc]
  rw [intervalIntegral.integral_div, h, h2, div_eq_div_iff (by positivity) (by positivity), besselI1]
  generalize (∫ x in (0 : ℝ)..Real.pi, Real.cos x * Real.exp (k * Real.cos x)) = J
  field_simp

theorem sin_centred (mu k : ℝ) : ∫ x in (-Real.pi)..Real.pi, Real.sin (x - mu) * vonMisesPdf mu k x = 0 := by
  have h := shift (g := fun x => Real.sin x * Real.exp (k * Real.cos x))
    (fun x => by simp only [Real.cos_add_two_pi, Real.sin_add_two_pi]) mu
  have h2 := odd_zero (g := fun x => Real.sin x * Real.exp (k * Real.cos x)) fun x => by
    rw [Real.cos_neg, Real.sin_neg, neg_mul]
  simp only [vonMisesPdf, ← mul_div_assoc]
  rw [intervalIntegral.integral_div, h, h2, zero_div]

theorem direction (mu k : ℝ) :
    ∫ x, Real.cos x ∂vonMisesLaw mu k = besselI1 k / besselI0 k * Real.cos mu ∧
      ∫ x, Real.sin x ∂vonMisesLaw mu k = besselI1 k / besselI0 k * Real.sin mu := by
  have i1 : IntervalIntegrable (fun x => Real.cos (x - mu) * vonMisesPdf mu k x) volume (-Real.pi) Real.pi :=
    Continuous.intervalIntegrable ((by fun_prop : Continuous fun x => Real.cos (x - mu)).mul (cont mu k)) _ _
  have i2 : IntervalIntegrable (fun x => Real.sin (x - mu) * vonMisesPdf mu k x) volume (-Real.pi) Real.pi :=
    Continuous.intervalIntegrable ((by fun_prop : Continuous fun x => Real.sin (x - mu)).mul (cont mu k)) _ _
  have ec : ∀ x, Real.cos x * vonMisesPdf mu k x = Real.cos mu * (Real.cos (x - mu) * vonMisesPdf mu k x) -
      Real.sin mu * (Real.sin (x - mu) * vonMisesPdf mu k x) := fun x => by
    have : Real.cos x = Real.cos (mu + (x - mu)) := by congr 1; ring
    rw [this, Real.cos_add]
    ring
  have es : ∀ x, Real.sin x * vonMisesPdf mu k x = Real.sin mu * (Real.cos (x - mu) * vonMisesPdf mu k x) +
      Real.cos mu * (Real.sin (x - mu) * vonMisesPdf mu k x) := fun x => by
    have : Real.sin x = Real.sin (mu + (x - mu)) := by congr 1; ring
    rw [this, Real.sin_add]
    ring
  constructor
  · rw [integral_law]
    simp only [ec]
    rw [intervalIntegral.integral_sub (i1.const_mul _) (i2.const_mul _), intervalIntegral.integral_const_mul,
      intervalIntegral.integral_const_mul, cos_centred, sin_centred]
    ring
  · rw [integral_law]
    simp only [es]
    rw [intervalIntegral.integral_add (i1.const_mul _) (i2.const_mul _), intervalIntegral.integral_const_mul,
      intervalIntegral.integral_const_mul, cos_centred, sin_centred]
    ring

/-- the mean on the line: what lies beyond `π` comes in from the other side -/
theorem mean_line (mu k : ℝ) :
    ∫ x, x ∂vonMisesLaw mu k = mu - 2 * Real.pi * ∫ t in (Real.pi - mu)..Real.pi, vonMisesPdf 0 k t := by
  set w := vonMisesPdf 0 k with hw
  have hc : Continuous w := cont 0 k
  have hwmu : ∀ x, vonMisesPdf mu k x = w (x - mu) := fun x => by simp [hw, vonMisesPdf]
  have hper : ∀ x, w (x - 2 * Real.pi) = w x := fun x => by
    simp only [hw, vonMisesPdf, sub_zero, Real.cos_sub_two_pi]
  have hi : ∀ (g : ℝ → ℝ), Continuous g → ∀ a b, IntervalIntegrable g volume a b := fun g hg a b => hg.intervalIntegrable a b
  have hyw : Continuous fun y => y * w y := continuous_id.mul hc
  rw [integral_law]
  simp only [hwmu]
  have e1 : ∀ x, x * w (x - mu) = (fun y => y * w y) (x - mu) + mu * w (x - mu) := fun x => by simp only; ring
  simp only [e1]
  have cw : Continuous fun x => w (x - mu) := hc.comp (by fun_prop)
  rw [intervalIntegral.integral_add (hi (fun x => (x - mu) * w (x - mu)) (hyw.comp (by fun_prop : Continuous fun x => x - mu)) _ _)
    (hi _ (cw.const_mul mu) _ _),
    intervalIntegral.integral_const_mul]
  have t := total mu k
  simp only [hwmu] at t
  rw [t, integral_comp_sub_right (fun y => y * w y) mu]
  have h0 : ∫ y in (-Real.pi)..Real.pi, y * w y = 0 := odd_zero fun y => by
    simp only [hw, vonMisesPdf, sub_zero, Real.cos_neg, neg_mul]
  have s1 := integral_add_adjacent_intervals (hi _ hyw (-Real.pi - mu) (-Real.pi)) (hi _ hyw (-Real.pi) (Real.pi - mu))
  have s2 := integral_add_adjacent_intervals (hi _ hyw (-Real.pi) (Real.pi - mu)) (hi _ hyw (Real.pi - mu) Real.pi)
  have s3 := integral_comp_sub_right (a := Real.pi - mu) (b := Real.pi) (fun y => y * w y) (2 * Real.pi)
  rw [show Real.pi - mu - 2 * Real.pi = -Real.pi - mu by ring, show Real.pi - 2 * Real.pi = -Real.pi by ring] at s3
  have e2 : ∀ x, (x - 2 * Real.pi) * w (x - 2 * Real.pi) = x * w x - 2 * Real.pi * w x := fun x => by rw [hper]; ring
  simp only [e2] at s3
  rw [intervalIntegral.integral_sub (hi _ hyw _ _) (hi _ (hc.const_mul _) _ _), intervalIntegral.integral_const_mul] at s3
  linarith

end Verif.VMLaw
