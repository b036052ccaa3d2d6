import Verif.Props.Special
import Verif.Props.RiceWeibull
import Verif.Lemmas.WeibullShape

/-!
# C73: how far the deviation of the fitted Weibull law is from the requested one

`special.gamma` is the code's own approximation of the Gamma function (`Model/Special`).
-/

namespace Verif.Props
open Verif MeasureTheory Special

/-- the law returned, its mean up to the error of the Gamma function and its deviation -/
private theorem weibull_returned {mean sigma : ℝ} (hm : 0 < mean) (hs : 0 < sigma) (hz : sigma ≤ 2.7 * mean) :
    ∃ alpha beta r, RiceWeibull.garcia gamma mean sigma = .ok (alpha, beta) ∧ 0 < alpha ∧ 0 < beta ∧
      |r - 1| ≤ 6e-13 ∧ 0 < Weib.rec (sigma / mean) ∧
      Spec.central (Spec.weibullLaw alpha beta) 2 = (mean * r) ^ 2 *
        (Real.Gamma (1 + 2 * Weib.rec (sigma / mean)) / Real.Gamma (1 + Weib.rec (sigma / mean)) ^ 2 - 1) := by
  obtain ⟨alpha, beta, h, ha, hb, hacc⟩ := weibull_mean_accuracy hm hs hz
  have hz0 : 0 < sigma / mean := by positivity
  have hz1 : sigma / mean ≤ 2.7 := by rw [div_le_iff₀ hm]; linarith
  have hd : 0 < Weib.rec (sigma / mean) := mul_pos hz0 (garcia_den_pos hz0 hz1)
  have halpha : 1 / alpha = Weib.rec (sigma / mean) := by
    unfold RiceWeibull.garcia at h
    rw [if_neg hm.ne'] at h
    dsimp only at h
    split_ifs at h
    injection h with h
    injection h with h _
    rw [← h, Weib.rec]
    simp
  refine ⟨alpha, beta, Spec.mean (Spec.weibullLaw alpha beta) / mean, h, ha, hb, ?_, hd, ?_⟩
  · rw [show Spec.mean (Spec.weibullLaw alpha beta) / mean - 1 = (Spec.mean (Spec.weibullLaw alpha beta) - mean) / mean by
      field_simp, abs_div, abs_of_pos hm, div_le_iff₀ hm]
    exact hacc
  · rw [Weib.var ha hb, halpha, mul_div_cancel₀ _ hm.ne']

private theorem below {mean r q c e sigma : ℝ} (hm : 0 < mean) (hr : |r - 1| ≤ 6e-13) (hs : 0 < sigma) (hc : 0 ≤ c)
    (h : q ≤ c ^ 2 * (sigma / mean) ^ 2) (he : c * (1 + 6e-13) ≤ e) :
    Real.sqrt ((mean * r) ^ 2 * q) ≤ e * sigma := by
  obtain ⟨h1, h2⟩ := abs_le.1 hr
  have hr0 : 0 ≤ r := by norm_num at h1 ⊢; linarith
  have h3 : (mean * r) ^ 2 * q ≤ (c * r * sigma) ^ 2 := by
    calc (mean * r) ^ 2 * q ≤ (mean * r) ^ 2 * (c ^ 2 * (sigma / mean) ^ 2) :=
          mul_le_mul_of_nonneg_left h (sq_nonneg _)
      _ = (c * r * sigma) ^ 2 := by field_simp
  refine (Real.sqrt_le_sqrt h3).trans ?_
  rw [Real.sqrt_sq (by positivity)]
  refine mul_le_mul_of_nonneg_right (le_trans ?_ he) hs.le
  exact mul_le_mul_of_nonneg_left (by linarith) hc

private theorem above {mean r q c e sigma : ℝ} (hm : 0 < mean) (hr : |r - 1| ≤ 6e-13) (hs : 0 < sigma) (hc : 0 ≤ c)
    (h : c ^ 2 * (sigma / mean) ^ 2 ≤ q) (he : e ≤ c * (1 - 6e-13)) :
    e * sigma ≤ Real.sqrt ((mean * r) ^ 2 * q) := by
  obtain ⟨h1, h2⟩ := abs_le.1 hr
  have hr0 : 0 ≤ r := by norm_num at h1 ⊢; linarith
  have h3 : (c * r * sigma) ^ 2 ≤ (mean * r) ^ 2 * q := by
    calc (c * r * sigma) ^ 2 = (mean * r) ^ 2 * (c ^ 2 * (sigma / mean) ^ 2) := by field_simp
      _ ≤ (mean * r) ^ 2 * q := mul_le_mul_of_nonneg_left h (sq_nonneg _)
  refine le_trans ?_ (Real.sqrt_le_sqrt h3)
  rw [Real.sqrt_sq (by positivity)]
  refine mul_le_mul_of_nonneg_right (he.trans ?_) hs.le
  exact mul_le_mul_of_nonneg_left (by linarith) hc

/-- C73: the deviation of the fitted law differs from the requested one by at most a thousandth up to a coefficient of variation
of 1.4, and by at most 9 per cent up to 2 -/
theorem weibull_deviation {mean sigma : ℝ} (hm : 0 < mean) (hs : 0 < sigma) (hz : sigma ≤ 2.7 * mean) :
    ∃ alpha beta, RiceWeibull.garcia gamma mean sigma = .ok (alpha, beta) ∧ 0 < alpha ∧ 0 < beta ∧
      Real.sqrt (Spec.central (Spec.weibullLaw alpha beta) 2) ≤ 1.001 * sigma ∧
      (sigma ≤ 1.4 * mean → 0.999 * sigma ≤ Real.sqrt (Spec.central (Spec.weibullLaw alpha beta) 2)) ∧
      (sigma ≤ 2 * mean → 0.91 * sigma ≤ Real.sqrt (Spec.central (Spec.weibullLaw alpha beta) 2)) := by
  obtain ⟨alpha, beta, r, h, ha, hb, hr, hd, hv⟩ := weibull_returned hm hs hz
  have hz0 : 0 < sigma / mean := by positivity
  have hz1 : sigma / mean ≤ 2.7 := by rw [div_le_iff₀ hm]; linarith
  refine ⟨alpha, beta, h, ha, hb, ?_, ?_, ?_⟩
  · have hg := Weib.ge_of_gap (by norm_num) (by norm_num) Weib.hi_27 hz0 hz1 hd
      (by push_cast; linarith) (by push_cast; norm_num at hz1 ⊢; linarith)
    rw [hv]
    refine below hm hr hs (c := 1.000999) (by norm_num) ?_ (by norm_num)
    push_cast at hg
    norm_num at hg ⊢
    linarith
  · intro h14
    have hz2 : sigma / mean ≤ 1.4 := by rw [div_le_iff₀ hm]; linarith
    have hg := Weib.le_of_gap (by norm_num) (by norm_num) Weib.lo_14 hz0 hz1 hd
      (by push_cast; linarith) (by push_cast; norm_num at hz2 ⊢; linarith)
    rw [hv]
    refine above hm hr hs (c := 0.999001) (by norm_num) ?_ (by norm_num)
    push_cast at hg
    norm_num at hg ⊢
    linarith
  · intro h2
    have hz2 : sigma / mean ≤ 2 := by rw [div_le_iff₀ hm]; linarith
    have hg := Weib.le_of_gap (by norm_num) (by norm_num) Weib.lo_2 hz0 hz1 hd
      (by push_cast; linarith) (by push_cast; linarith)
    rw [hv]
    refine above hm hr hs (c := 0.911) (by norm_num) ?_ (by norm_num)
    push_cast at hg
    norm_num at hg ⊢
    linarith

/-- a mean of 10 and a deviation of 5 -/
example : ∃ alpha beta, RiceWeibull.garcia gamma 10 5 = .ok (alpha, beta) ∧
    |Real.sqrt (Spec.central (Spec.weibullLaw alpha beta) 2) - 5| ≤ 0.005 := by
  obtain ⟨alpha, beta, h, _, _, h1, h2, _⟩ := weibull_deviation (mean := 10) (sigma := 5) (by norm_num) (by norm_num)
    (by norm_num)
  refine ⟨alpha, beta, h, abs_le.2 ⟨?_, ?_⟩⟩
  · have := h2 (by norm_num); norm_num at this ⊢; linarith
  · norm_num at h1 ⊢; linarith

/-- C73 fails from a coefficient of variation of 1.5 on: the deviation is always too small, by at least 8 per cent from 2 on and
by at least half from 2.5 on -/
theorem weibull_deviation_wrong {mean sigma : ℝ} (hm : 0 < mean) (h15 : 1.5 * mean ≤ sigma) (hz : sigma ≤ 2.7 * mean) :
    ∃ alpha beta, RiceWeibull.garcia gamma mean sigma = .ok (alpha, beta) ∧ 0 < alpha ∧ 0 < beta ∧
      Real.sqrt (Spec.central (Spec.weibullLaw alpha beta) 2) ≤ 0.998 * sigma ∧
      (2 * mean ≤ sigma → Real.sqrt (Spec.central (Spec.weibullLaw alpha beta) 2) ≤ 0.92 * sigma) ∧
      (2.5 * mean ≤ sigma → Real.sqrt (Spec.central (Spec.weibullLaw alpha beta) 2) ≤ 0.5 * sigma) := by
  have hs : 0 < sigma := by norm_num at h15; linarith
  obtain ⟨alpha, beta, r, h, ha, hb, hr, hd, hv⟩ := weibull_returned hm hs hz
  have hz0 : 0 < sigma / mean := by positivity
  have hz1 : sigma / mean ≤ 2.7 := by rw [div_le_iff₀ hm]; linarith
  refine ⟨alpha, beta, h, ha, hb, ?_, ?_, ?_⟩
  · have hz2 : 1.5 ≤ sigma / mean := by rw [le_div_iff₀ hm]; linarith
    have hg := Weib.ge_of_gap (by norm_num) (by norm_num) Weib.hi_15 hz0 hz1 hd
      (by push_cast; norm_num at hz2; linarith) (by push_cast; norm_num at hz1 ⊢; linarith)
    rw [hv]
    refine below hm hr hs (c := 0.9979) (by norm_num) ?_ (by norm_num)
    push_cast at hg
    norm_num at hg ⊢
    linarith
  · intro h2
    have hz2 : 2 ≤ sigma / mean := by rw [le_div_iff₀ hm]; linarith
    have hg := Weib.ge_of_gap (by norm_num) (by norm_num) Weib.hi_2 hz0 hz1 hd
      (by push_cast; linarith) (by push_cast; norm_num at hz1 ⊢; linarith)
    rw [hv]
    refine below hm hr hs (c := 0.919) (by norm_num) ?_ (by norm_num)
    push_cast at hg
    norm_num at hg ⊢
    linarith
  · intro h2
    have hz2 : 2.5 ≤ sigma / mean := by rw [le_div_iff₀ hm]; linarith
    have hg := Weib.ge_of_gap (by norm_num) (by norm_num) Weib.hi_25 hz0 hz1 hd
      (by push_cast; norm_num at hz2; linarith) (by push_cast; norm_num at hz1 ⊢; linarith)
    rw [hv]
    refine below hm hr hs (c := 0.499) (by norm_num) ?_ (by norm_num)
    push_cast at hg
    norm_num at hg ⊢
    linarith

/-- a mean of 1 and a deviation of 2.6: the fitted law has less than half of it -/
example : ∃ alpha beta, RiceWeibull.garcia gamma 1 2.6 = .ok (alpha, beta) ∧
    Real.sqrt (Spec.central (Spec.weibullLaw alpha beta) 2) ≤ 1.3 := by
  obtain ⟨alpha, beta, h, _, _, _, _, h1⟩ := weibull_deviation_wrong (mean := 1) (sigma := 2.6) (by norm_num) (by norm_num)
    (by norm_num)
  refine ⟨alpha, beta, h, ?_⟩
  have := h1 (by norm_num)
  norm_num at this ⊢
  linarith

end Verif.Props
