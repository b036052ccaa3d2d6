import Verif.Model.MleMore
import Verif.Props.Mle
import Verif.Spec.Circular
import Mathlib.Tactic

set_option linter.unusedSimpArgs false

/-!
# C65: fits of VonMises, ExGaussian, and the start of the SkewNormal fit
-/

namespace Verif.Props
open Verif Verif.Mle Verif.Spec

/-! ### VonMises -/

private theorem cos_npMod (mu x : ℝ) : Real.cos (mu - npMod x (2 * Real.pi)) = Real.cos (mu - x) := by
  unfold npMod
  have : mu - (x - 2 * Real.pi * ⌊x / (2 * Real.pi)⌋) = mu - x + (⌊x / (2 * Real.pi)⌋ : ℤ) * (2 * Real.pi) := by ring
  rw [this, Real.cos_add_int_mul_two_pi]

private theorem cos_npMod' (x : ℝ) : Real.cos (npMod x (2 * Real.pi)) = Real.cos x := by
  have := cos_npMod 0 x
  simpa using this

private theorem sin_npMod (x : ℝ) : Real.sin (npMod x (2 * Real.pi)) = Real.sin x := by
  unfold npMod
  have : x - 2 * Real.pi * ⌊x / (2 * Real.pi)⌋ = x - (⌊x / (2 * Real.pi)⌋ : ℤ) * (2 * Real.pi) := by ring
  rw [this, Real.sin_sub_int_mul_two_pi]

/-- total length of the resultant of the unit vectors -/
noncomputable def resultant (l : List ℝ) : ℝ :=
  Real.sqrt ((l.map Real.cos).sum ^ 2 + (l.map Real.sin).sum ^ 2)

private theorem sum_cos_sub (l : List ℝ) (mu : ℝ) :
    (l.map fun x => Real.cos (x - mu)).sum = Real.cos mu * (l.map Real.cos).sum + Real.sin mu * (l.map Real.sin).sum := by
  induction l with
  | nil => simp
  | cons a l ih =>
    simp only [List.map_cons, List.sum_cons]
    rw [ih, Real.cos_sub]; ring

/-- no direction has a larger sum of cosines than the resultant -/
private theorem sum_cos_le (l : List ℝ) (mu : ℝ) : (l.map fun x => Real.cos (x - mu)).sum ≤ resultant l := by
  rw [sum_cos_sub]
  unfold resultant
  apply Real.le_sqrt_of_sq_le
  nlinarith [Real.sin_sq_add_cos_sq mu,
    sq_nonneg (Real.cos mu * (l.map Real.sin).sum - Real.sin mu * (l.map Real.cos).sum)]

private theorem sum_cos_arg (l : List ℝ) (mu : ℝ)
    (h : mu = Complex.arg (⟨(l.map Real.cos).sum, (l.map Real.sin).sum⟩ : ℂ)) :
    (l.map fun x => Real.cos (x - mu)).sum = resultant l := by
  rw [sum_cos_sub]
  set z : ℂ := ⟨(l.map Real.cos).sum, (l.map Real.sin).sum⟩ with hz
  have hre : (l.map Real.cos).sum = z.re := rfl
  have him : (l.map Real.sin).sum = z.im := rfl
  have hn : ‖z‖ = resultant l := by
    unfold resultant
    rw [Complex.norm_def, Complex.normSq_apply, hre, him]
    congr 1; ring
  rw [← hn, h, hre, him]
  have h1 := Complex.norm_mul_cos_arg z
  have h2 := Complex.norm_mul_sin_arg z
  have h3 := Real.sin_sq_add_cos_sq z.arg
  calc Real.cos z.arg * z.re + Real.sin z.arg * z.im
      = Real.cos z.arg * (‖z‖ * Real.cos z.arg) + Real.sin z.arg * (‖z‖ * Real.sin z.arg) := by rw [h1, h2]
    _ = ‖z‖ * (Real.sin z.arg ^ 2 + Real.cos z.arg ^ 2) := by ring
    _ = ‖z‖ := by rw [h3, mul_one]

/-- values of the fit on a non-empty sample -/
theorem vonmises_value (root : ℝ → Except Err ℝ) (l : List ℝ) (hl : l ≠ []) :
    ∃ mu, -Real.pi ≤ mu ∧ mu < Real.pi ∧ (l.map fun x => Real.cos (x - mu)).sum = resultant l ∧
      vonMisesFit root l = (if resultant l / l.length > 0 then root (resultant l / l.length) else .ok tiny).map
        fun k => some (mu, k) := by
  set data := l.map fun x => npMod x (2 * Real.pi) with hd
  have hdne : data ≠ [] := by simpa [hd] using hl
  have hc : (data.map Real.cos).sum = (l.map Real.cos).sum := by
    rw [hd, List.map_map]; congr 1; apply List.map_congr_left; intro x _; exact cos_npMod' x
  have hs : (data.map Real.sin).sum = (l.map Real.sin).sum := by
    rw [hd, List.map_map]; congr 1; apply List.map_congr_left; intro x _; exact sin_npMod x
  set a := Complex.arg (⟨(l.map Real.cos).sum, (l.map Real.sin).sum⟩ : ℂ) with ha
  have hcirc : circmean data = some (if a < 0 then a + 2 * Real.pi else a) := by
    unfold circmean
    rw [if_neg hdne, hc, hs]
  set m := (if a < 0 then a + 2 * Real.pi else a) with hm
  have hper : ∀ x, Real.cos (x - m) = Real.cos (x - a) := by
    intro x
    rw [hm]
    split_ifs
    · rw [show x - (a + 2 * Real.pi) = x - a - 2 * Real.pi by ring, Real.cos_sub_two_pi]
    · rfl
  have hpi : (0 : ℝ) < 2 * Real.pi := by positivity
  refine ⟨npMod (m + Real.pi) (2 * Real.pi) - Real.pi, ?_, ?_, ?_, ?_⟩
  · unfold npMod
    have := Int.floor_le ((m + Real.pi) / (2 * Real.pi))
    rw [le_div_iff₀ hpi] at this
    linarith
  · unfold npMod
    have := Int.lt_floor_add_one ((m + Real.pi) / (2 * Real.pi))
    rw [div_lt_iff₀ hpi] at this
    linarith
  · rw [← sum_cos_arg l a ha]
    congr 1
    apply List.map_congr_left
    intro x _
    rw [← hper x]
    unfold npMod
    rw [show x - (m + Real.pi - 2 * Real.pi * ⌊(m + Real.pi) / (2 * Real.pi)⌋ - Real.pi) =
      x - m + (⌊(m + Real.pi) / (2 * Real.pi)⌋ : ℤ) * (2 * Real.pi) by ring, Real.cos_add_int_mul_two_pi]
  · have here : (data.map fun x => Real.cos (m - x)).sum / data.length = resultant l / l.length := by
      rw [hd, List.length_map, List.map_map, ← sum_cos_arg l a ha]
      congr 2
      apply List.map_congr_left
      intro x _
      simp only [Function.comp]
      rw [cos_npMod, ← hper x, ← Real.cos_neg, neg_sub]
    unfold vonMisesFit
    simp only [hcirc, ← hd]
    unfold findKappa
    rw [here]
    simp only
    split_ifs with hpos
    · cases root (resultant l / l.length) <;> rfl
    · rfl

private theorem bessel_integrable (k : ℝ) :
    IntervalIntegrable (fun t => Real.exp (k * Real.cos t)) MeasureTheory.volume 0 Real.pi :=
  (by fun_prop : Continuous fun t => Real.exp (k * Real.cos t)).intervalIntegrable _ _

private theorem bessel_integrable' (k : ℝ) :
    IntervalIntegrable (fun t => Real.cos t * Real.exp (k * Real.cos t)) MeasureTheory.volume 0 Real.pi :=
  (by fun_prop : Continuous fun t => Real.cos t * Real.exp (k * Real.cos t)).intervalIntegrable _ _

theorem besselI0_pos (k : ℝ) : 0 < besselI0 k := by
  unfold besselI0
  have : 0 < ∫ t in (0 : ℝ)..Real.pi, Real.exp (k * Real.cos t) :=
    intervalIntegral.intervalIntegral_pos_of_pos (bessel_integrable k) (fun t => Real.exp_pos _) Real.pi_pos
  positivity

/-- the logarithm of the normalising constant lies above its tangents -/
theorem besselI0_tangent (k k' : ℝ) :
    besselI0 k * Real.exp ((k' - k) * (besselI1 k / besselI0 k)) ≤ besselI0 k' := by
  have h0 := besselI0_pos k
  set m := (k' - k) * (besselI1 k / besselI0 k) with hm
  have hmono : (∫ t in (0 : ℝ)..Real.pi, Real.exp m * ((1 - m) * Real.exp (k * Real.cos t) +
      (k' - k) * (Real.cos t * Real.exp (k * Real.cos t)))) ≤ ∫ t in (0 : ℝ)..Real.pi, Real.exp (k' * Real.cos t) := by
    apply intervalIntegral.integral_mono_on Real.pi_pos.le _ (bessel_integrable k')
    · intro t _
      have h1 := Real.add_one_le_exp ((k' - k) * Real.cos t - m)
      have h2 : Real.exp (k' * Real.cos t) =
          Real.exp m * Real.exp (k * Real.cos t) * Real.exp ((k' - k) * Real.cos t - m) := by
        rw [← Real.exp_add, ← Real.exp_add]; congr 1; ring
      rw [h2]
      have h3 := mul_le_mul_of_nonneg_left h1 (mul_nonneg (Real.exp_pos m).le (Real.exp_pos (k * Real.cos t)).le)
      calc _ = Real.exp m * Real.exp (k * Real.cos t) * ((k' - k) * Real.cos t - m + 1) := by ring
        _ ≤ _ := h3
    · exact (((bessel_integrable k).const_mul _).add ((bessel_integrable' k).const_mul _)).const_mul _
  rw [intervalIntegral.integral_const_mul, intervalIntegral.integral_add ((bessel_integrable k).const_mul _)
    ((bessel_integrable' k).const_mul _), intervalIntegral.integral_const_mul, intervalIntegral.integral_const_mul] at hmono
  have e0 : ∫ t in (0 : ℝ)..Real.pi, Real.exp (k * Real.cos t) = Real.pi * besselI0 k := by
    unfold besselI0; field_simp
  have e0' : ∫ t in (0 : ℝ)..Real.pi, Real.exp (k' * Real.cos t) = Real.pi * besselI0 k' := by
    unfold besselI0; field_simp
  have e1 : ∫ t in (0 : ℝ)..Real.pi, Real.cos t * Real.exp (k * Real.cos t) = Real.pi * besselI1 k := by
    unfold besselI1; rw [← mul_assoc, mul_one_div, div_self Real.pi_ne_zero, one_mul]
  rw [e0, e0', e1] at hmono
  have e2 : (k' - k) * besselI1 k = m * besselI0 k := by rw [hm]; field_simp
  have hpi := Real.pi_pos
  have e3 : Real.exp m * ((1 - m) * (Real.pi * besselI0 k) + (k' - k) * (Real.pi * besselI1 k)) =
      Real.pi * (besselI0 k * Real.exp m) := by
    have : (k' - k) * (Real.pi * besselI1 k) = Real.pi * (m * besselI0 k) := by rw [← e2]; ring
    rw [this]; ring
  rw [e3] at hmono
  exact le_of_mul_le_mul_left hmono hpi

private theorem vm_lik (l : List ℝ) (mu k : ℝ) : lik (vonMisesPdf mu k) l =
    Real.exp (k * (l.map fun x => Real.cos (x - mu)).sum) / (2 * Real.pi * besselI0 k) ^ l.length := by
  unfold lik
  induction l with
  | nil => simp
  | cons a l ih =>
    simp only [List.map_cons, List.prod_cons, List.sum_cons, ih, List.length_cons, vonMisesPdf]
    rw [mul_add, Real.exp_add, pow_succ]
    have := besselI0_pos k
    field_simp

/-- C65: if the equation solver returns a solution, the VonMises fit is the maximum-likelihood estimate among all means
and all concentrations `≥ 0`, and its mean is in [-π, π). -/
theorem vonmises_fit_optimal (root : ℝ → Except Err ℝ) (l : List ℝ) (mu k : ℝ)
    (h : vonMisesFit root l = .ok (some (mu, k))) (hR : 0 < resultant l)
    (hroot : ∀ r κ, root r = .ok κ → besselI1 κ / besselI0 κ = r) :
    -Real.pi ≤ mu ∧ mu < Real.pi ∧
      ∀ mu' k', 0 ≤ k' → lik (vonMisesPdf mu' k') l ≤ lik (vonMisesPdf mu k) l := by
  have hl : l ≠ [] := by
    rintro rfl; simp [resultant] at hR
  have hn : (0 : ℝ) < l.length := by exact_mod_cast List.length_pos_iff.2 hl
  obtain ⟨m, h1, h2, h3, h4⟩ := vonmises_value root l hl
  have hpos : resultant l / l.length > 0 := div_pos hR hn
  rw [if_pos hpos] at h4
  rw [h4] at h
  cases hr : root (resultant l / l.length) with
  | error e => rw [hr] at h; simp [Except.map] at h
  | ok κ =>
    rw [hr] at h
    simp only [Except.map, Except.ok.injEq, Option.some.injEq, Prod.mk.injEq] at h
    obtain ⟨rfl, rfl⟩ := h
    refine ⟨h1, h2, ?_⟩
    intro mu' k' hk'
    have hA := hroot _ _ hr
    have ht := besselI0_tangent κ k'
    rw [hA] at ht
    have hI := besselI0_pos κ
    have hI' := besselI0_pos k'
    rw [vm_lik, vm_lik, h3]
    have hcos := sum_cos_le l mu'
    rw [div_le_div_iff₀ (by positivity) (by positivity)]
    have hb : (2 * Real.pi * besselI0 κ) ^ l.length * Real.exp ((k' - κ) * resultant l) ≤
        (2 * Real.pi * besselI0 k') ^ l.length := by
      have e : Real.exp ((k' - κ) * resultant l) = Real.exp ((k' - κ) * (resultant l / l.length)) ^ l.length := by
        rw [← Real.exp_nat_mul]; congr 1; field_simp
      rw [e, ← mul_pow]
      apply pow_le_pow_left₀ (by positivity)
      have hpi := Real.pi_pos
      nlinarith
    calc Real.exp (k' * (l.map fun x => Real.cos (x - mu')).sum) * (2 * Real.pi * besselI0 κ) ^ l.length
        ≤ Real.exp (k' * resultant l) * (2 * Real.pi * besselI0 κ) ^ l.length := by
          apply mul_le_mul_of_nonneg_right _ (by positivity)
          exact Real.exp_le_exp.2 (mul_le_mul_of_nonneg_left hcos hk')
      _ = Real.exp (κ * resultant l) * ((2 * Real.pi * besselI0 κ) ^ l.length * Real.exp ((k' - κ) * resultant l)) := by
          have : Real.exp (k' * resultant l) = Real.exp (κ * resultant l) * Real.exp ((k' - κ) * resultant l) := by
            rw [← Real.exp_add]; congr 1; ring
          rw [this]; ring
      _ ≤ _ := mul_le_mul_of_nonneg_left hb (Real.exp_pos _).le

private theorem bessel_zero : besselI0 0 = 1 ∧ besselI1 0 = 0 := by
  unfold besselI0 besselI1
  constructor
  · simp
  · simp

private theorem ratio_nonneg (k : ℝ) (hk : 0 ≤ k) : 0 ≤ besselI1 k / besselI0 k := by
  rcases hk.eq_or_lt with rfl | hk
  · rw [bessel_zero.2]; simp
  · by_contra hneg
    push Not at hneg
    have h1 := besselI0_tangent k 0
    have h2 := besselI0_tangent 0 k
    rw [bessel_zero.1, bessel_zero.2] at h2
    rw [bessel_zero.1] at h1
    simp only [zero_div, mul_zero, Real.exp_zero, mul_one] at h2
    have h3 : 0 < (0 - k) * (besselI1 k / besselI0 k) := by nlinarith
    have h4 : 1 < Real.exp ((0 - k) * (besselI1 k / besselI0 k)) := Real.one_lt_exp_iff.2 h3
    nlinarith

/-- C65: directions that cancel out are given the smallest concentration a float can hold; no larger one is more
likely. -/
theorem vonmises_fit_cancelling (root : ℝ → Except Err ℝ) (l : List ℝ) (hl : l ≠ []) (hR : resultant l = 0) :
    ∃ mu, vonMisesFit root l = .ok (some (mu, tiny)) ∧ -Real.pi ≤ mu ∧ mu < Real.pi ∧
      ∀ mu' k', tiny ≤ k' → lik (vonMisesPdf mu' k') l ≤ lik (vonMisesPdf mu tiny) l := by
  obtain ⟨m, h1, h2, h3, h4⟩ := vonmises_value root l hl
  rw [hR, zero_div, if_neg (lt_irrefl _)] at h4
  have htiny : 0 ≤ tiny := by unfold tiny; positivity
  refine ⟨m, h4, h1, h2, ?_⟩
  intro mu' k' hk'
  rw [vm_lik, vm_lik, h3, hR, mul_zero, Real.exp_zero]
  have hcos := sum_cos_le l mu'
  rw [hR] at hcos
  have h5 : Real.exp (k' * (l.map fun x => Real.cos (x - mu')).sum) ≤ 1 := by
    rw [Real.exp_le_one_iff]
    exact mul_nonpos_of_nonneg_of_nonpos (htiny.trans hk') hcos
  have h6 : besselI0 tiny ≤ besselI0 k' := by
    refine le_trans ?_ (besselI0_tangent tiny k')
    have h7 : 1 ≤ Real.exp ((k' - tiny) * (besselI1 tiny / besselI0 tiny)) :=
      Real.one_le_exp (mul_nonneg (by linarith) (ratio_nonneg _ htiny))
    nlinarith [besselI0_pos tiny]
  have hI := besselI0_pos tiny
  have hpi := Real.pi_pos
  apply div_le_div₀ zero_le_one h5 (by positivity)
  apply pow_le_pow_left₀ (by positivity)
  nlinarith

private theorem besselI1_one_pos : 0 < besselI1 1 := by
  have h : (∫ t in (0 : ℝ)..Real.pi, (Real.cos t + 1 / 2 * Real.cos t ^ 2)) ≤
      ∫ t in (0 : ℝ)..Real.pi, Real.cos t * Real.exp (1 * Real.cos t) := by
    apply intervalIntegral.integral_mono_on Real.pi_pos.le _ (bessel_integrable' 1)
    · intro t _
      rw [one_mul]
      set c := Real.cos t
      have h1 : c ≤ 1 := Real.cos_le_one t
      have h2 : -1 ≤ c := Real.neg_one_le_cos t
      rcases le_total 0 c with hc | hc
      · nlinarith [mul_le_mul_of_nonneg_left (Real.add_one_le_exp c) hc]
      · have h3 := Real.add_one_le_exp (-c)
        have h4 : Real.exp c * Real.exp (-c) = 1 := by rw [← Real.exp_add]; simp
        have h5 : Real.exp c * (1 - c) ≤ 1 := by
          nlinarith [mul_le_mul_of_nonneg_left h3 (Real.exp_pos c).le]
        have h6 : Real.exp c ≤ 1 + c / 2 := by
          by_contra h7
          push Not at h7
          nlinarith
        nlinarith
    · exact (by fun_prop : Continuous fun t => Real.cos t + 1 / 2 * Real.cos t ^ 2).intervalIntegrable _ _
  rw [intervalIntegral.integral_add (Real.continuous_cos.intervalIntegrable _ _)
    ((by fun_prop : Continuous fun t => 1 / 2 * Real.cos t ^ 2).intervalIntegrable _ _),
    intervalIntegral.integral_const_mul, integral_cos, integral_cos_sq] at h
  simp at h
  unfold besselI1
  have hpi := Real.pi_pos
  have : 0 < ∫ t in (0 : ℝ)..Real.pi, Real.cos t * Real.exp (1 * Real.cos t) := by
    simp only [one_mul]
    linarith
  positivity

/-- the hypotheses of `vonmises_fit_optimal` are met: a solver for one equation, and a sample with that mean
resultant -/
example : ∃ (root : ℝ → Except Err ℝ) (l : List ℝ) (mu k : ℝ), vonMisesFit root l = .ok (some (mu, k)) ∧
    0 < resultant l ∧ (∀ r κ, root r = .ok κ → besselI1 κ / besselI0 κ = r) := by
  classical
  refine ⟨fun r => if r = besselI1 1 / besselI0 1 then .ok 1 else .error .valueError,
    [Real.arccos (besselI1 1 / besselI0 1), -Real.arccos (besselI1 1 / besselI0 1)], ?_⟩
  have hpos : 0 < besselI1 1 / besselI0 1 := div_pos besselI1_one_pos (besselI0_pos 1)
  have hle : besselI1 1 / besselI0 1 ≤ 1 := by
    rw [div_le_one (besselI0_pos 1)]
    unfold besselI1 besselI0
    apply mul_le_mul_of_nonneg_left _ (by positivity)
    apply intervalIntegral.integral_mono_on Real.pi_pos.le (bessel_integrable' 1) (bessel_integrable 1)
    intro t _
    have := mul_le_mul_of_nonneg_right (Real.cos_le_one t) (Real.exp_pos (1 * Real.cos t)).le
    linarith
  set A := besselI1 1 / besselI0 1 with hA
  have hres : resultant [Real.arccos A, -Real.arccos A] = 2 * A := by
    unfold resultant
    simp only [List.map_cons, List.map_nil, List.sum_cons, List.sum_nil, Real.cos_neg, Real.sin_neg,
      Real.cos_arccos (by linarith) hle]
    rw [show (A + (A + 0)) ^ 2 + (Real.sin (Real.arccos A) + (-Real.sin (Real.arccos A) + 0)) ^ 2 = (2 * A) ^ 2 by ring,
      Real.sqrt_sq (by linarith)]
  obtain ⟨m, -, -, -, h⟩ := vonmises_value (fun r => if r = A then .ok 1 else .error .valueError)
    [Real.arccos A, -Real.arccos A] (by simp)
  have e : resultant [Real.arccos A, -Real.arccos A] / ([Real.arccos A, -Real.arccos A].length : ℝ) = A := by
    rw [hres]; simp
  refine ⟨m, 1, ?_, by rw [hres]; linarith, ?_⟩
  · rw [h, e, if_pos hpos]; simp [Except.map]
  · intro r κ h
    beta_reduce at h
    split_ifs at h with hr
    · simp only [Except.ok.injEq] at h
      rw [← h, hr]

/-! ### ExGaussian -/

/-- the population skewness -/
noncomputable def popSkew (l : List ℝ) : ℝ :=
  (l.map fun x => (x - popMean l) ^ 3).sum / (l.length : ℝ) / Real.sqrt (popVar l) ^ 3

private theorem sampleSkew_eq (l : List ℝ) (h : 0 < popVar l) : sampleSkew l = some (popSkew l) := by
  have e1 : (l.map fun x => (x - l.sum / (l.length : ℝ)) ^ 2).sum / (l.length : ℝ) = popVar l := rfl
  have e2 : (l.map fun x => (x - l.sum / (l.length : ℝ)) ^ 3).sum / (l.length : ℝ) =
    (l.map fun x => (x - popMean l) ^ 3).sum / (l.length : ℝ) := rfl
  unfold sampleSkew
  dsimp only
  rw [e1, e2, if_neg h.ne']
  unfold popSkew
  congr 2
  rw [Real.sqrt_eq_rpow, ← Real.rpow_natCast, ← Real.rpow_mul h.le]
  norm_num

/-- C65: if the sample skewness is at most two, the fitted ExGaussian has the mean and the variance of the sample and a
positive `nu`; its skewness is that of the sample or 0.0001, whichever is larger. -/
theorem exgaussian_fit_moments (l : List ℝ) (hv : 0 < popVar l) (hs : popSkew l ≤ 2) :
    ∃ mu sigma nu, exGaussianFit l = .ok (mu, some sigma, nu) ∧ 0 < nu ∧ 0 ≤ sigma ∧
      exgMean mu nu = popMean l ∧ exgVar sigma nu = popVar l ∧ exgSkew sigma nu = max (popSkew l) 1e-4 := by
  have hl : l ≠ [] := by rintro rfl; simp [popVar] at hv
  set sd := √(popVar l) with hsd
  have hsd0 : 0 < sd := Real.sqrt_pos.2 hv
  have hsq : sd ^ 2 = popVar l := Real.sq_sqrt hv.le
  set sk := maxSkew (some (popSkew l)) with hsk
  have hsk0 : 0 < sk := by rw [hsk]; unfold maxSkew; dsimp only; split_ifs with h <;> [linarith; norm_num]
  have hsk2 : sk ≤ 2 := by rw [hsk]; unfold maxSkew; dsimp only; split_ifs with h <;> [exact hs; norm_num]
  set t := (sk / 2) ^ (1 / 3 : ℝ) with ht
  have ht0 : 0 < t := Real.rpow_pos_of_pos (by positivity) _
  have ht1 : t ≤ 1 := Real.rpow_le_one (by positivity) (by linarith) (by norm_num)
  have ht2 : (sk / 2) ^ (2 / 3 : ℝ) = t ^ 2 := by
    rw [ht, ← Real.rpow_natCast, ← Real.rpow_mul (by positivity)]; norm_num
  have ht3 : t ^ 3 = sk / 2 := by
    rw [ht, ← Real.rpow_natCast, ← Real.rpow_mul (by positivity)]; norm_num
  have hvar : 0 ≤ sd ^ 2 * (1 - t ^ 2) := by
    apply mul_nonneg (sq_nonneg _); nlinarith
  refine ⟨popMean l - sd * t, √(sd ^ 2 * (1 - t ^ 2)), sd * t, ?_, by positivity, Real.sqrt_nonneg _, ?_, ?_, ?_⟩
  · unfold exGaussianFit
    rw [mean_and_std_value l hl, sampleSkew_eq l hv]
    simp only [Except.ok_bind', Except.pure_eq]
    rw [← hsd, ← hsk, ← ht, ht2, if_neg (not_lt.2 hvar)]
  · unfold exgMean; ring
  · unfold exgVar; rw [Real.sq_sqrt hvar, ← hsq]; ring
  · have hske : sk = max (popSkew l) 1e-4 := by
      rw [hsk]; unfold maxSkew; dsimp only
      split_ifs with h
      · exact (max_eq_left h.le).symm
      · exact (max_eq_right (not_lt.1 h)).symm
    unfold exgSkew
    rw [Real.sq_sqrt hvar, show sd ^ 2 * (1 - t ^ 2) + (sd * t) ^ 2 = sd ^ 2 by ring, Real.sqrt_sq hsd0.le]
    rw [mul_pow, ht3, hske]
    field_simp

/-- C65, what fails: a sample skewness above two gives an ExGaussian whose `sigma` is not a number. -/
theorem exgaussian_fit_nan (l : List ℝ) (hv : 0 < popVar l) (hs : 2 < popSkew l) :
    ∃ mu nu, exGaussianFit l = .ok (mu, none, nu) := by
  have hl : l ≠ [] := by rintro rfl; simp [popVar] at hv
  set sd := √(popVar l) with hsd
  have hsd0 : 0 < sd := Real.sqrt_pos.2 hv
  have hsk : maxSkew (some (popSkew l)) = popSkew l := by
    unfold maxSkew; dsimp only; rw [if_pos]; norm_num; linarith
  have h1 : 1 < (popSkew l / 2) ^ (2 / 3 : ℝ) := Real.one_lt_rpow (by linarith) (by norm_num)
  refine ⟨popMean l - sd * (popSkew l / 2) ^ (1 / 3 : ℝ), sd * (popSkew l / 2) ^ (1 / 3 : ℝ), ?_⟩
  unfold exGaussianFit
  rw [mean_and_std_value l hl, sampleSkew_eq l hv]
  simp only [Except.ok_bind', Except.pure_eq]
  rw [← hsd, hsk, if_pos]
  have : 0 < sd ^ 2 := by positivity
  nlinarith

private theorem spike_moments : popVar [1, 0, 0, 0, 0, 0, 0, 0, 0, 0] = 9 / 100 ∧
    popSkew [1, 0, 0, 0, 0, 0, 0, 0, 0, 0] = 8 / 3 := by
  have hm : popMean [1, 0, 0, 0, 0, 0, 0, 0, 0, 0] = 1 / 10 := by norm_num [popMean]
  have hv : popVar [1, 0, 0, 0, 0, 0, 0, 0, 0, 0] = 9 / 100 := by
    unfold popVar; rw [hm]; norm_num
  refine ⟨hv, ?_⟩
  unfold popSkew
  rw [hv, hm, show (9 / 100 : ℝ) = (3 / 10) ^ 2 by norm_num, Real.sqrt_sq (by norm_num)]
  norm_num

/-- C65, what fails: one value 1 and nine values 0 -/
theorem exgaussian_fit_spike : ∃ mu nu, exGaussianFit [1, 0, 0, 0, 0, 0, 0, 0, 0, 0] = .ok (mu, none, nu) := by
  apply exgaussian_fit_nan
  · rw [spike_moments.1]; norm_num
  · rw [spike_moments.2]; norm_num

/-- the hypotheses of `exgaussian_fit_moments` are met by 1, 0, 0 -/
example : 0 < popVar [1, 0, 0] ∧ popSkew [1, 0, 0] ≤ 2 ∧ 1e-4 ≤ popSkew [1, 0, 0] := by
  have hm : popMean [1, 0, 0] = 1 / 3 := by norm_num [popMean]
  have hv : popVar [1, 0, 0] = 2 / 9 := by unfold popVar; rw [hm]; norm_num
  have hs : √(2 / 9 : ℝ) ^ 2 = 2 / 9 := Real.sq_sqrt (by norm_num)
  have h0 : 0 < √(2 / 9 : ℝ) := Real.sqrt_pos.2 (by norm_num)
  have hle : √(2 / 9 : ℝ) ≤ 1 := by rw [Real.sqrt_le_one]; norm_num
  have hge : 1 / 3 ≤ √(2 / 9 : ℝ) := Real.le_sqrt_of_sq_le (by norm_num)
  have e3 : √(2 / 9 : ℝ) ^ 3 = 2 / 9 * √(2 / 9 : ℝ) := by rw [pow_succ, hs]
  have hk : popSkew [1, 0, 0] = (2 / 27) / (2 / 9 * √(2 / 9 : ℝ)) := by
    unfold popSkew; rw [hv, hm, e3]; norm_num
  refine ⟨by rw [hv]; norm_num, ?_, ?_⟩
  · rw [hk, div_le_iff₀ (by positivity)]; nlinarith
  · rw [hk, le_div_iff₀ (by positivity)]; nlinarith

/-! ### SkewNormal -/

/-- C65: a sample skewness strictly between -1 and 1 gives the SkewNormal fit a finite starting shape whose `delta` is that
skewness. -/
theorem skewnormal_start (l : List ℝ) (hv : 0 < popVar l) (hs : |popSkew l| < 1) :
    ∃ a, skewNormalStart l = some a ∧ a / √(1 + a ^ 2) = popSkew l := by
  have h1 : 0 < 1 - popSkew l ^ 2 := by
    have := (sq_lt_one_iff_abs_lt_one _).2 hs; linarith
  refine ⟨popSkew l / √(1 - popSkew l ^ 2), ?_, ?_⟩
  · unfold skewNormalStart
    rw [sampleSkew_eq l hv, Option.bind_some, if_neg (not_le.2 h1)]
  · set r := √(1 - popSkew l ^ 2) with hr
    have hr0 : 0 < r := Real.sqrt_pos.2 h1
    have hr2 : r ^ 2 = 1 - popSkew l ^ 2 := Real.sq_sqrt h1.le
    have : 1 + (popSkew l / r) ^ 2 = (1 / r) ^ 2 := by
      field_simp; rw [hr2]; ring
    rw [this, Real.sqrt_sq (by positivity)]
    field_simp

/-- C65, what fails: with a skewness outside, the shape stored before the numerical fit starts is not a finite number. -/
theorem skewnormal_start_nan (l : List ℝ) (hv : 0 < popVar l) (hs : 1 ≤ |popSkew l|) : skewNormalStart l = none := by
  unfold skewNormalStart
  rw [sampleSkew_eq l hv, Option.bind_some, if_pos]
  have := (one_le_sq_iff_one_le_abs _).2 hs; linarith

example : 0 < popVar [1, 0, 0, 0, 0, 0, 0, 0, 0, 0] ∧ 1 ≤ |popSkew [1, 0, 0, 0, 0, 0, 0, 0, 0, 0]| := by
  rw [spike_moments.1, spike_moments.2]; norm_num [abs_of_pos]

end Verif.Props
