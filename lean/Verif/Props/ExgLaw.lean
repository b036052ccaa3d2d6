import Verif.Props.MleMore
import Verif.Lemmas.LawThird

/-!
# C65: the law of the fitted ExGaussian
-/

namespace Verif.Props
open Verif Verif.Mle Verif.Spec MeasureTheory

/-- the law has mean `m`, variance `v` and skewness `k` -/
def HasSkewness (P : Measure ℝ) (m v k : ℝ) : Prop :=
  Spec.HasMoments P m v ∧ Integrable (fun x : ℝ => (x - m) ^ 3) P ∧ (∫ x, (x - m) ^ 3 ∂P) / √v ^ 3 = k

/-- the documented density of ExGaussian has the skewness that the fit inverts -/
theorem exg_law_skew {s n : ℝ} (hs : 0 < s) (hn : 0 < n) (m : ℝ) :
    HasSkewness (Spec.ofPdf (Spec.exGaussianPdf m s n)) (m + n) (s ^ 2 + n ^ 2) (Spec.exgSkew s n) := by
  have r := Law.exGaussianRaw hs hn m
  have h := (Law.exGaussian34 hs hn m).1
  refine ⟨Law.exGaussian hs hn m, (Law.ofPdf_integrable r.meas r.nonneg _).2 h.1, ?_⟩
  rw [Law.ofPdf_integral r.meas r.nonneg, h.2]
  rfl

/-- C65: for a sample with a skewness below two, the law of the fitted ExGaussian has the mean and the variance of the sample;
its skewness is that of the sample or 0.0001, whichever is larger. -/
theorem exgaussian_fit_law (l : List ℝ) (hv : 0 < popVar l) (h2 : popSkew l < 2) :
    ∃ mu sigma nu, exGaussianFit l = .ok (mu, some sigma, nu) ∧ 0 < sigma ∧ 0 < nu ∧
      HasSkewness (Spec.ofPdf (Spec.exGaussianPdf mu sigma nu)) (popMean l) (popVar l) (max (popSkew l) 1e-4) := by
  obtain ⟨mu, sigma, nu, hf, hnu, hsig, hm, hva, hsk⟩ := exgaussian_fit_moments l hv h2.le
  have h : 0 < sigma := by
    refine lt_of_le_of_ne hsig fun h => ?_
    have h3 : max (popSkew l) 1e-4 < 2 := max_lt h2 (by norm_num)
    unfold Spec.exgSkew at hsk
    rw [← h, zero_pow two_ne_zero, zero_add, Real.sqrt_sq hnu.le, mul_div_assoc, div_self (by positivity)] at hsk
    linarith
  refine ⟨mu, sigma, nu, hf, h, hnu, ?_⟩
  have := exg_law_skew h hnu mu
  unfold exgMean at hm; unfold exgVar at hva
  rwa [hsk, hm, hva] at this

/-- C65, what fails: a symmetric sample gets a skewed law -/
theorem exgaussian_fit_symmetric : popSkew [0, 1] = 0 ∧
    ∃ mu sigma nu, exGaussianFit [0, 1] = .ok (mu, some sigma, nu) ∧
      HasSkewness (Spec.ofPdf (Spec.exGaussianPdf mu sigma nu)) (1 / 2) (1 / 4) 1e-4 := by
  have hm : popMean [0, 1] = 1 / 2 := by norm_num [popMean]
  have hv : popVar [0, 1] = 1 / 4 := by unfold popVar; rw [hm]; norm_num
  have hk : popSkew [0, 1] = 0 := by unfold popSkew; rw [hm]; norm_num
  obtain ⟨mu, sigma, nu, hf, _, _, h⟩ := exgaussian_fit_law [0, 1] (by rw [hv]; norm_num) (by rw [hk]; norm_num)
  refine ⟨hk, mu, sigma, nu, hf, ?_⟩
  rw [hm, hv, hk, max_eq_right (by norm_num)] at h
  exact h

/-- a law with skewness 2 · 2³ / √(1 + 4)³ -/
example : HasSkewness (Spec.ofPdf (Spec.exGaussianPdf 0 1 2)) (0 + 2) (1 ^ 2 + 2 ^ 2) (Spec.exgSkew 1 2) :=
  exg_law_skew one_pos two_pos 0

end Verif.Props
