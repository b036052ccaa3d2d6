import Verif.Model.RiceWeibull
import Verif.Lemmas.Bessel
import Mathlib.Analysis.Real.Pi.Bounds

/-!
# C73: moment matching for Rice and Weibull gives the law with the requested moments
-/

namespace Verif.Props
open Verif Verif.RiceWeibull MeasureTheory ProbabilityTheory

/-- the textbook Bessel formula for the mean of a Rice law with unit scale -/
def BesselMean (i0 i1 : ℝ → ℝ) : Prop :=
  ∀ theta : ℝ, 0 ≤ theta →
    Real.pi / 8 * Real.exp (-(theta ^ 2) / 2) *
      ((2 + theta ^ 2) * i0 (theta ^ 2 / 4) + theta ^ 2 * i1 (theta ^ 2 / 4)) ^ 2 =
    Spec.mean (Spec.riceLaw theta 1) ^ 2

/-- the point the minimiser returns is a minimum over the nonnegative numbers -/
def Minimum (f : ℝ → Option ℝ) (theta : ℝ) : Prop :=
  0 ≤ theta ∧ ∀ t : ℝ, 0 ≤ t → ∀ v, f t = some v → ∃ w, f theta = some w ∧ w ≤ v

/-- under the formula `xi` is the variance of the Rice law with unit scale -/
theorem xi_var {i0 i1 : ℝ → ℝ} (hB : BesselMean i0 i1) {theta : ℝ} (h : 0 ≤ theta) :
    xi i0 i1 theta = Spec.central (Spec.riceLaw theta 1) 2 := by
  rw [Spec.rice_var, xi, hB theta h]
  ring

theorem gap_nonneg {i0 i1 : ℝ → ℝ} {r t v : ℝ} (h : gap i0 i1 r t = some v) : 0 ≤ v := by
  unfold gap at h
  cases hf : fpf i0 i1 r t with
  | none => rw [hf] at h; simp at h
  | some u =>
    rw [hf] at h
    simp only [Option.map_some, Option.some.injEq] at h
    rw [← h]; positivity

/-- a fixed point of the iteration gives a Rice law with exactly the requested moments -/
theorem rice_fixed_point {i0 i1 : ℝ → ℝ} (hB : BesselMean i0 i1)
    (minimize : (ℝ → Option ℝ) → Option ℝ → ℝ) {mean stdDev : ℝ} (hs : 0 < stdDev)
    (hr : 1.913 ≤ mean / stdDev)
    (h0 : 0 ≤ minimize (gap i0 i1 (mean / stdDev)) (fpf i0 i1 (mean / stdDev) 1))
    (hz : gap i0 i1 (mean / stdDev)
      (minimize (gap i0 i1 (mean / stdDev)) (fpf i0 i1 (mean / stdDev) 1)) = some 0) :
    ∃ nu sigma, riceMoments i0 i1 minimize mean stdDev = .ok (some nu, some sigma) ∧
      0 ≤ nu ∧ 0 < sigma ∧
      Spec.mean (Spec.riceLaw nu sigma) = mean ∧
      Spec.central (Spec.riceLaw nu sigma) 2 = stdDev ^ 2 := by
  unfold riceMoments
  rw [if_neg hs.ne']
  dsimp only
  rw [if_neg (not_lt.2 hr)]
  set ratio := mean / stdDev with hratio
  set theta := minimize (gap i0 i1 ratio) (fpf i0 i1 ratio 1) with htheta
  have hmean : mean = ratio * stdDev := by rw [hratio]; field_simp
  have hr0 : 0 < ratio := lt_of_lt_of_le (by norm_num) hr
  set X := xi i0 i1 theta with hX
  -- the fixed point equation
  have hfix : X * (1 + ratio ^ 2) - 2 = theta ^ 2 := by
    unfold gap fpf root at hz
    rw [← hX] at hz
    by_cases hneg : X * (1 + ratio ^ 2) - 2 < 0
    · rw [if_pos hneg] at hz; simp at hz
    · rw [if_neg hneg] at hz
      simp only [Option.map_some, Option.some.injEq, abs_eq_zero, sub_eq_zero] at hz
      push Not at hneg
      rw [← hz, Real.sq_sqrt hneg]
  have hXpos : 0 < X := by
    have h1 : X * (1 + ratio ^ 2) = 2 + theta ^ 2 := by linarith
    have h2 : 0 < X * (1 + ratio ^ 2) := by rw [h1]; positivity
    exact (pos_iff_pos_of_mul_pos h2).2 (by positivity)
  have hroot : root X = some (Real.sqrt X) := by unfold root; rw [if_neg (not_lt.2 hXpos.le)]
  have hsq : 0 < Real.sqrt X := Real.sqrt_pos.2 hXpos
  have hsq2 : Real.sqrt X ^ 2 = X := Real.sq_sqrt hXpos.le
  have hnu2 : mean ^ 2 + (X - 2) * (stdDev / Real.sqrt X) ^ 2 = (stdDev / Real.sqrt X * theta) ^ 2 := by
    rw [mul_pow, ← hfix, div_pow, hsq2, hmean]
    field_simp
    ring
  have hnn : 0 ≤ stdDev / Real.sqrt X * theta := by positivity
  refine ⟨stdDev / Real.sqrt X * theta, stdDev / Real.sqrt X, ?_, hnn, by positivity, ?_⟩
  · rw [hroot]
    simp only [Option.map_some, Option.bind_some]
    rw [hnu2]
    unfold root
    rw [if_neg (not_lt.2 (sq_nonneg _)), Real.sqrt_sq hnn]
  have hM : Spec.mean (Spec.riceLaw theta 1) = Real.sqrt X * ratio := by
    have h1 : Spec.mean (Spec.riceLaw theta 1) ^ 2 = (Real.sqrt X * ratio) ^ 2 := by
      rw [← hB theta h0, mul_pow, hsq2]
      have : X = 2 + theta ^ 2 - Real.pi / 8 * Real.exp (-(theta ^ 2) / 2) *
        ((2 + theta ^ 2) * i0 (theta ^ 2 / 4) + theta ^ 2 * i1 (theta ^ 2 / 4)) ^ 2 := rfl
      linarith
    exact (sq_eq_sq₀ (Spec.rice_mean_nonneg _ _) (by positivity)).1 h1
  have hmeanEq : Spec.mean (Spec.riceLaw (stdDev / Real.sqrt X * theta) (stdDev / Real.sqrt X)) = mean := by
    rw [Spec.rice_mean_scale _ _ (by positivity)]
    rw [mul_div_cancel_left₀ _ (by positivity), hM, hmean]
    field_simp
  refine ⟨hmeanEq, ?_⟩
  rw [Spec.rice_var, hmeanEq, ← hnu2, div_pow, hsq2]
  field_simp
  ring

/-- the objective is zero at the parameters of a law with the requested moments -/
private theorem gap_zero {i0 i1 : ℝ → ℝ} (hB : BesselMean i0 i1) {nu0 sigma0 : ℝ} (hn : 0 ≤ nu0) (hs0 : 0 < sigma0)
    {mean stdDev : ℝ} (hsp : 0 < stdDev)
    (hmean : Spec.mean (Spec.riceLaw nu0 sigma0) = mean)
    (hstd : Spec.central (Spec.riceLaw nu0 sigma0) 2 = stdDev ^ 2) :
    gap i0 i1 (mean / stdDev) (nu0 / sigma0) = some 0 := by
  set t := nu0 / sigma0 with ht
  have ht0 : 0 ≤ t := by positivity
  have hnu : nu0 = sigma0 * t := by rw [ht]; field_simp
  set M := Spec.mean (Spec.riceLaw t 1) with hM
  have hmM : mean = sigma0 * M := by rw [← hmean, Spec.rice_mean_scale _ _ hs0]
  have hX : xi i0 i1 t = 2 + t ^ 2 - M ^ 2 := by
    unfold xi; rw [hB t ht0]
  have hstd2 : stdDev ^ 2 = sigma0 ^ 2 * (2 + t ^ 2 - M ^ 2) := by
    rw [← hstd, Spec.rice_var, hmean, hmM, hnu]; ring
  have hv : xi i0 i1 t * (1 + (mean / stdDev) ^ 2) - 2 = t ^ 2 := by
    have hxpos : 0 < 2 + t ^ 2 - M ^ 2 := by
      have : 0 < sigma0 ^ 2 * (2 + t ^ 2 - M ^ 2) := by rw [← hstd2]; positivity
      exact (pos_iff_pos_of_mul_pos this).1 (by positivity)
    have hd : (mean / stdDev) ^ 2 * (2 + t ^ 2 - M ^ 2) = M ^ 2 := by
      have hq : (mean / stdDev) ^ 2 = M ^ 2 / (2 + t ^ 2 - M ^ 2) := by
        rw [div_pow, hstd2, hmM, mul_pow, mul_div_mul_left _ _ (by positivity)]
      rw [hq, div_mul_cancel₀ _ hxpos.ne']
    rw [hX]
    linarith
  unfold gap fpf root
  rw [hv, if_neg (not_lt.2 (sq_nonneg t)), Real.sqrt_sq ht0]
  simp

/-- the moments of every Rice law with a ratio above the limit are matched exactly, if the minimiser
finds a minimum -/
theorem rice_moments_exact {i0 i1 : ℝ → ℝ} (hB : BesselMean i0 i1)
    (minimize : (ℝ → Option ℝ) → Option ℝ → ℝ) {nu0 sigma0 : ℝ} (hn : 0 ≤ nu0) (hs0 : 0 < sigma0)
    {mean stdDev : ℝ} (hs : 0 ≤ stdDev)
    (hmean : Spec.mean (Spec.riceLaw nu0 sigma0) = mean)
    (hstd : Spec.central (Spec.riceLaw nu0 sigma0) 2 = stdDev ^ 2)
    (hr : 1.913 ≤ mean / stdDev)
    (hmin : Minimum (gap i0 i1 (mean / stdDev))
      (minimize (gap i0 i1 (mean / stdDev)) (fpf i0 i1 (mean / stdDev) 1))) :
    ∃ nu sigma, riceMoments i0 i1 minimize mean stdDev = .ok (some nu, some sigma) ∧
      0 ≤ nu ∧ 0 < sigma ∧
      Spec.mean (Spec.riceLaw nu sigma) = mean ∧
      Spec.central (Spec.riceLaw nu sigma) 2 = stdDev ^ 2 := by
  have hsp : 0 < stdDev := by
    rcases hs.lt_or_eq with h | h
    · exact h
    · rw [← h, div_zero] at hr; norm_num at hr
  have hzero := gap_zero hB hn hs0 hsp hmean hstd
  obtain ⟨h0, hall⟩ := hmin
  obtain ⟨w, hw, hw0⟩ := hall _ (by positivity) 0 hzero
  have hwz : w = 0 := by
    have := gap_nonneg hw
    linarith
  rw [hwz] at hw
  exact rice_fixed_point hB minimize hsp hr h0 hw

/-- the formula holds for the Bessel functions -/
theorem bessel_mean : BesselMean Spec.besselI0 Spec.besselI1 := by
  intro t _
  rw [Spec.rice_mean_bessel, mul_pow, mul_pow, Real.sq_sqrt (by have := Real.pi_pos; positivity), ← Real.exp_nat_mul]
  congr 3
  push_cast; ring

/-- the law of the distance has the documented density -/
theorem rice_documented (nu : ℝ) {sigma : ℝ} (hs : 0 < sigma) :
    Spec.riceLaw nu sigma = volume.withDensity fun x => ENNReal.ofReal (Spec.ricePdf nu sigma x) :=
  Spec.rice_density nu hs

/-- the positive means and deviations of Rice laws are those with at least the ratio of a Rayleigh law -/
theorem rice_attainable {mean stdDev : ℝ} (hm : 0 < mean) (hs : 0 < stdDev) :
    (∃ nu sigma, 0 ≤ nu ∧ 0 < sigma ∧ Spec.mean (Spec.riceLaw nu sigma) = mean ∧
      Spec.central (Spec.riceLaw nu sigma) 2 = stdDev ^ 2) ↔ Real.pi / (4 - Real.pi) ≤ (mean / stdDev) ^ 2 := by
  refine ⟨?_, Spec.rice_attained hm hs⟩
  rintro ⟨nu, sigma, -, h1, h2, h3⟩
  have h := Spec.rice_ratio_ge nu h1
  rw [h2, h3] at h
  have h4 : 0 < 4 - Real.pi := by linarith [Real.pi_lt_d2]
  rw [div_pow, div_le_div_iff₀ h4 (by positivity)]
  linarith

/-- every attainable pair of moments is matched exactly by the code with the Bessel functions, if the minimiser finds a
minimum -/
theorem rice_moments_attainable (minimize : (ℝ → Option ℝ) → Option ℝ → ℝ) {mean stdDev : ℝ} (hm : 0 < mean) (hs : 0 < stdDev)
    (hr : Real.pi / (4 - Real.pi) ≤ (mean / stdDev) ^ 2)
    (hmin : Minimum (gap Spec.besselI0 Spec.besselI1 (mean / stdDev))
      (minimize (gap Spec.besselI0 Spec.besselI1 (mean / stdDev)) (fpf Spec.besselI0 Spec.besselI1 (mean / stdDev) 1))) :
    ∃ nu sigma, riceMoments Spec.besselI0 Spec.besselI1 minimize mean stdDev = .ok (some nu, some sigma) ∧
      0 ≤ nu ∧ 0 < sigma ∧
      Spec.mean (Spec.riceLaw nu sigma) = mean ∧
      Spec.central (Spec.riceLaw nu sigma) 2 = stdDev ^ 2 := by
  obtain ⟨nu0, sigma0, h1, h2, h3, h4⟩ := Spec.rice_attained hm hs hr
  refine rice_moments_exact bessel_mean minimize h1 h2 hs.le h3 h4 ?_ hmin
  have hp := Real.pi_gt_d6
  have hp2 : 0 < 4 - Real.pi := by linarith [Real.pi_lt_d2]
  have h5 : (1.913 : ℝ) ^ 2 ≤ Real.pi / (4 - Real.pi) := by
    rw [le_div_iff₀ hp2]; norm_num at hp ⊢; linarith
  exact le_of_sq_le_sq (h5.trans hr) (by positivity)

/-- a Rice law whose nu is at least 2.71 times its sigma has a ratio above the limit -/
theorem rice_ratio {nu sigma : ℝ} (hs : 0 < sigma) (h : 2.71 * sigma ≤ nu) :
    1.913 ≤ Spec.mean (Spec.riceLaw nu sigma) / Real.sqrt (Spec.central (Spec.riceLaw nu sigma) 2) := by
  have hv := Spec.rice_var_pos nu sigma hs
  rw [le_div_iff₀ (Real.sqrt_pos.2 hv)]
  have hge := Spec.rice_mean_ge nu sigma
  have hn : 0 < nu := lt_of_lt_of_le (by positivity) h
  refine le_of_sq_le_sq ?_ (Spec.rice_mean_nonneg _ _)
  rw [mul_pow, Real.sq_sqrt hv.le, Spec.rice_var]
  have h1 : (2.71 * sigma) ^ 2 ≤ nu ^ 2 := by
    exact pow_le_pow_left₀ (by positivity) h 2
  have h2 : nu ^ 2 ≤ Spec.mean (Spec.riceLaw nu sigma) ^ 2 := pow_le_pow_left₀ hn.le hge 2
  nlinarith

/-- below the limit the law returned has a variance smaller than the one asked for (the scale is
multiplied by 0.655 where it had to be divided) -/
theorem rice_rayleigh_wrong (i0 i1 : ℝ → ℝ) (minimize : (ℝ → Option ℝ) → Option ℝ → ℝ)
    {mean stdDev : ℝ} (hs : 1e-15 ≤ stdDev) (hr : mean / stdDev < 1.913) :
    ∃ nu sigma, riceMoments i0 i1 minimize mean stdDev = .ok (some nu, some sigma) ∧
      Spec.central (Spec.riceLaw nu sigma) 2 < stdDev ^ 2 := by
  have hpos : 0 < stdDev := lt_of_lt_of_le (by norm_num) hs
  refine ⟨eps, 0.655 * stdDev, ?_, ?_⟩
  · unfold riceMoments
    rw [if_neg hpos.ne']
    dsimp only
    rw [if_pos hr]
  · rw [Spec.rice_var]
    have h1 : (1e-15 : ℝ) ^ 2 ≤ stdDev ^ 2 := pow_le_pow_left₀ (by norm_num) hs 2
    have h2 : eps ^ 2 ≤ 0.05 * (1e-15 : ℝ) ^ 2 := by unfold eps; norm_num
    have h3 := sq_nonneg (Spec.mean (Spec.riceLaw eps (0.655 * stdDev)))
    nlinarith

/-- a zero deviation raises -/
theorem rice_zero_std (i0 i1 : ℝ → ℝ) (minimize : (ℝ → Option ℝ) → Option ℝ → ℝ) (mean : ℝ) :
    riceMoments i0 i1 minimize mean 0 = .error .zeroDivision := by
  unfold riceMoments; rw [if_pos rfl]

/-! ## Weibull -/

theorem garcia_den_pos {z : ℝ} (h0 : 0 < z) (h1 : z ≤ 2.7) : 0 < 1 + (1 - z) ^ 2 * garciaPoly z := by
  have key : -0.3425 ≤ garciaPoly z := by
    unfold garciaPoly
    rcases le_total z 1 with h | h
    · nlinarith [mul_nonneg h0.le (sub_nonneg.2 h), mul_nonneg (mul_nonneg h0.le h0.le) (sub_nonneg.2 h)]
    · nlinarith [mul_nonneg (sub_nonneg.2 h) (sub_nonneg.2 h1),
        mul_nonneg (mul_nonneg (sub_nonneg.2 h) (sub_nonneg.2 h1)) (sub_nonneg.2 h)]
  have h2 : (1 - z) ^ 2 ≤ 2.89 := by nlinarith
  nlinarith [sq_nonneg (1 - z)]

private theorem den_neg {z : ℝ} (h1 : 2.75 ≤ z) : 1 + (1 - z) ^ 2 * garciaPoly z < 0 := by
  have key : garciaPoly z ≤ -0.36 := by
    unfold garciaPoly
    nlinarith [mul_nonneg (sub_nonneg.2 h1) (sub_nonneg.2 h1),
      mul_nonneg (mul_nonneg (sub_nonneg.2 h1) (sub_nonneg.2 h1)) (sub_nonneg.2 h1)]
  have h2 : 3.0625 ≤ (1 - z) ^ 2 := by nlinarith
  nlinarith

/-- up to a coefficient of variation of 2.7 the parameters are positive and the Weibull law they give
is a probability law with exactly the requested mean; if the deviation equals the mean, the law is the
exponential one and the deviation is exact too -/
theorem weibull_mean_exact_partial {mean sigma : ℝ} (hm : 0 < mean) (hs : 0 < sigma)
    (hz : sigma ≤ 2.7 * mean) :
    ∃ alpha beta, garcia Real.Gamma mean sigma = .ok (alpha, beta) ∧ 0 < alpha ∧ 0 < beta ∧
      IsProbabilityMeasure (Spec.weibullLaw alpha beta) ∧
      Spec.mean (Spec.weibullLaw alpha beta) = mean ∧
      (sigma = mean → alpha = 1 ∧ beta = mean ∧ Spec.central (Spec.weibullLaw alpha beta) 2 = sigma ^ 2) := by
  set z := sigma / mean with hzdef
  have hz0 : 0 < z := by positivity
  have hz1 : z ≤ 2.7 := by rw [hzdef, div_le_iff₀ hm]; linarith
  have hd := mul_pos hz0 (garcia_den_pos hz0 hz1)
  set den := z * (1 + (1 - z) ^ 2 * garciaPoly z) with hden
  have ha : 0 < 1 / den := by positivity
  have hg : 0 < Real.Gamma (1 + 1 / (1 / den)) := Real.Gamma_pos_of_pos (by positivity)
  have hgm : 0 < Real.Gamma (1 + 1 / (1 / den)) / mean := by positivity
  have hb : 0 < 1 / (Real.Gamma (1 + 1 / (1 / den)) / mean) := by positivity
  have hmean : Spec.mean (Spec.weibullLaw (1 / den) (1 / (Real.Gamma (1 + 1 / (1 / den)) / mean))) = mean := by
    rw [Spec.weibull_mean ha hb]
    field_simp
  refine ⟨1 / den, 1 / (Real.Gamma (1 + 1 / (1 / den)) / mean), ?_, ha, hb, Spec.weibull_prob ha hb,
    hmean, ?_⟩
  · unfold garcia
    rw [if_neg hm.ne']
    dsimp only
    rw [← hzdef, ← hden, if_neg hd.ne', if_neg hgm.ne']
  · intro he
    have hz' : z = 1 := by rw [hzdef, he]; field_simp
    have hden1 : den = 1 := by rw [hden, hz']; ring
    have hG : Real.Gamma (1 + 1 / (1 / den)) = 1 := by
      rw [hden1]
      have := Real.Gamma_add_one (s := 1) one_ne_zero
      norm_num at this ⊢
    have ha1 : 1 / den = 1 := by rw [hden1]; norm_num
    have hb1 : 1 / (Real.Gamma (1 + 1 / (1 / den)) / mean) = mean := by rw [hG]; field_simp
    refine ⟨ha1, hb1, ?_⟩
    rw [hb1, ha1] at hmean ⊢
    have hprob : IsProbabilityMeasure (Spec.weibullLaw 1 mean) := Spec.weibull_prob one_pos hm
    have hG3 : Real.Gamma 3 = 2 := by
      have h1 := Real.Gamma_nat_eq_factorial 2
      rw [show ((2:ℕ):ℝ) + 1 = 3 by norm_num] at h1
      rw [h1]; norm_num [Nat.factorial]
    have h2 := Spec.weibull_raw (alpha := 1) one_pos hm 2
    norm_num [hG3] at h2
    have hint2 : Integrable (fun x : ℝ => x ^ 2) (Spec.weibullLaw 1 mean) := by
      by_contra hc
      rw [integral_undef hc] at h2
      have : (0:ℝ) < mean ^ 2 * 2 := by positivity
      linarith
    have hL : MemLp (fun x : ℝ => x) 2 (Spec.weibullLaw 1 mean) :=
      (memLp_two_iff_integrable_sq (by fun_prop)).2 hint2
    have hvar := variance_eq_sub hL
    rw [variance_eq_integral (by fun_prop)] at hvar
    simp only [Pi.pow_apply, h2] at hvar
    have hm' : ∫ x, x ∂(Spec.weibullLaw 1 mean) = mean := hmean
    unfold Spec.central Spec.mean
    rw [hvar, hm', he]
    ring

/-- from a coefficient of variation of 2.75 on the shape returned is negative, whatever the gamma
function gives -/
theorem weibull_negative_shape (gamma : ℝ → ℝ) {mean sigma : ℝ} (hm : 0 < mean)
    (hz : 2.75 * mean ≤ sigma) {alpha beta : ℝ} (h : garcia gamma mean sigma = .ok (alpha, beta)) :
    alpha < 0 := by
  have hz1 : 2.75 ≤ sigma / mean := by rw [le_div_iff₀ hm]; linarith
  have hd : sigma / mean * (1 + (1 - sigma / mean) ^ 2 * garciaPoly (sigma / mean)) < 0 :=
    mul_neg_of_pos_of_neg (lt_of_lt_of_le (by norm_num) hz1) (den_neg hz1)
  unfold garcia at h
  rw [if_neg hm.ne'] at h
  dsimp only at h
  rw [if_neg hd.ne] at h
  split_ifs at h
  injection h with h
  injection h with h _
  rw [← h]
  exact one_div_neg.2 hd

/-! ## Witnesses -/

/-- a minimiser that finds a zero where there is one -/
noncomputable def exMin (f : ℝ → Option ℝ) (_ : Option ℝ) : ℝ := by
  classical exact if h : ∃ t : ℝ, 0 ≤ t ∧ f t = some 0 then h.choose else 0

/-- mean 3, deviation 1 -/
example : ∃ nu sigma, riceMoments Spec.besselI0 Spec.besselI1 exMin 3 1 = .ok (some nu, some sigma) ∧
    Spec.mean (Spec.riceLaw nu sigma) = 3 ∧ Spec.central (Spec.riceLaw nu sigma) 2 = 1 ^ 2 := by
  have hp : 0 < 4 - Real.pi := by linarith [Real.pi_lt_d2]
  have hr : Real.pi / (4 - Real.pi) ≤ (3 / 1 : ℝ) ^ 2 := by
    rw [div_le_iff₀ hp]; linarith [Real.pi_lt_d2]
  obtain ⟨nu0, sigma0, h1, h2, h3, h4⟩ := Spec.rice_attained (m := 3) (s := 1) (by norm_num) one_pos hr
  have hex : ∃ t : ℝ, 0 ≤ t ∧ gap Spec.besselI0 Spec.besselI1 (3 / 1) t = some 0 :=
    ⟨nu0 / sigma0, by positivity, gap_zero bessel_mean h1 h2 one_pos h3 h4⟩
  have hpt : exMin (gap Spec.besselI0 Spec.besselI1 (3 / 1)) (fpf Spec.besselI0 Spec.besselI1 (3 / 1) 1) = hex.choose := by
    unfold exMin; rw [dif_pos hex]
  obtain ⟨nu, sigma, h5, -, -, h6, h7⟩ := rice_moments_attainable exMin (mean := 3) (stdDev := 1) (by norm_num) one_pos hr (by
    rw [hpt]
    exact ⟨hex.choose_spec.1, fun t ht v hv => ⟨0, hex.choose_spec.2, gap_nonneg hv⟩⟩)
  exact ⟨nu, sigma, h5, h6, h7⟩

/-- mean and deviation one are not those of a Rice law -/
example : ¬∃ nu sigma, 0 ≤ nu ∧ 0 < sigma ∧ Spec.mean (Spec.riceLaw nu sigma) = 1 ∧
    Spec.central (Spec.riceLaw nu sigma) 2 = 1 ^ 2 := by
  rw [rice_attainable one_pos one_pos, not_le]
  have hp : 0 < 4 - Real.pi := by linarith [Real.pi_lt_d2]
  rw [lt_div_iff₀ hp]; linarith [Real.pi_gt_three]

/-- mean 1, deviation 1 (ratio 1) -/
example : ∃ nu sigma, riceMoments Spec.besselI0 Spec.besselI1 exMin 1 1 = .ok (some nu, some sigma) ∧
    Spec.central (Spec.riceLaw nu sigma) 2 < 1 ^ 2 :=
  rice_rayleigh_wrong _ _ _ (by norm_num) (by norm_num)

/-- mean 10, deviation 4 -/
example : ∃ alpha beta, garcia Real.Gamma 10 4 = .ok (alpha, beta) ∧ 0 < alpha ∧
    Spec.mean (Spec.weibullLaw alpha beta) = 10 := by
  obtain ⟨a, b, h, ha, -, -, hm, -⟩ := weibull_mean_exact_partial (mean := 10) (sigma := 4)
    (by norm_num) (by norm_num) (by norm_num)
  exact ⟨a, b, h, ha, hm⟩

/-- mean 1, deviation 3: a shape is returned and it is negative -/
example : ∃ alpha beta, garcia (fun _ => 1) 1 3 = .ok (alpha, beta) ∧ alpha < 0 := by
  have h : ∃ alpha beta, garcia (fun _ => 1) 1 3 = .ok (alpha, beta) := by
    unfold garcia garciaPoly
    norm_num
  obtain ⟨a, b, h⟩ := h
  exact ⟨a, b, h, weibull_negative_shape _ one_pos (by norm_num) h⟩

end Verif.Props
