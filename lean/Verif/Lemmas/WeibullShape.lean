import Verif.Lemmas.RiceWeibull
import Verif.Lemmas.GammaDouble
import Verif.Lemmas.PolyRange
import Verif.Model.RiceWeibull

/-!
# The deviation of Weibull laws whose shape comes from the approximation

With `u` the reciprocal of the shape, the squared coefficient of variation of the law is `Γ(1+2u) / Γ(1+u)² - 1`, which
`Lemmas/GammaDouble` bounds by rational functions of `u`; `u` is a polynomial in the requested coefficient of variation.
-/

namespace Verif.Weib
open Verif.Poly Verif.GammaDouble MeasureTheory ProbabilityTheory

/-- the second central moment of a Weibull law -/
theorem var {alpha beta : ℝ} (ha : 0 < alpha) (hb : 0 < beta) :
    Spec.central (Spec.weibullLaw alpha beta) 2 =
      Spec.mean (Spec.weibullLaw alpha beta) ^ 2 *
        (Real.Gamma (1 + 2 * (1 / alpha)) / Real.Gamma (1 + 1 / alpha) ^ 2 - 1) := by
  have hp : IsProbabilityMeasure (Spec.weibullLaw alpha beta) := Spec.weibull_prob ha hb
  have h2 := Spec.weibull_raw ha hb 2
  rw [show 1 + ((2 : ℕ) : ℝ) / alpha = 1 + 2 * (1 / alpha) by push_cast; ring] at h2
  have hG2 : 0 < Real.Gamma (1 + 2 * (1 / alpha)) := Real.Gamma_pos_of_pos (by positivity)
  have hG1 : 0 < Real.Gamma (1 + 1 / alpha) := Real.Gamma_pos_of_pos (by positivity)
  have hint2 : Integrable (fun x : ℝ => x ^ 2) (Spec.weibullLaw alpha beta) := by
    by_contra hc
    rw [integral_undef hc] at h2
    have : 0 < beta ^ 2 * Real.Gamma (1 + 2 * (1 / alpha)) := by positivity
    linarith
  have hL : MemLp (fun x : ℝ => x) 2 (Spec.weibullLaw alpha beta) :=
    (memLp_two_iff_integrable_sq (by fun_prop)).2 hint2
  have hvar := variance_eq_sub hL
  rw [variance_eq_integral (by fun_prop)] at hvar
  simp only [Pi.pow_apply, h2] at hvar
  have hm := Spec.weibull_mean ha hb
  have hm' : ∫ x, x ∂(Spec.weibullLaw alpha beta) = beta * Real.Gamma (1 + 1 / alpha) := hm
  rw [hm]
  unfold Spec.central Spec.mean
  rw [hvar, hm']
  field_simp

/-! ## the polynomials -/

/-- 1e9 times the reciprocal of the shape, in the coefficient of variation -/
def recip : List ℤ :=
  mul [0, 1] (add [1000000000] (mul [1, -2, 1] [-221016417, 10060668, 117358987, -50999126]))

def num6 : List ℤ := pow (mul [1, 1] (mul [2, 1] (mul [3, 1] (mul [4, 1] (mul [5, 1] [6, 1]))))) 2
def den6 : List ℤ := mul [1, 2] (mul [4, 4] (mul [9, 6] (mul [16, 8] (mul [25, 10] [36, 12]))))
def loNum : List ℤ := mul num6 (add (mul [28, 4] [13, 2, 1]) [1, 0, -2, 0, 1])
def loDen : List ℤ := mul den6 (add (mul [28, 4] [13, 2, -1]) [1, 0, -2, 0, 1])
def hiNum : List ℤ := mul num6 [13, 2, 1]
def hiDen : List ℤ := mul den6 [13, 2, -1]

/-- the lower bound against `1 + (n/d) z²` -/
def loGap (n d : ℤ) : List ℤ := add (smul d (hom recip [1000000000] loNum))
  (mul [-d * 1000000000 ^ 6, 0, -n * 1000000000 ^ 6] (hom recip [1000000000] loDen))

/-- the upper bound against `1 + (n/d) z²` -/
def hiGap (n d : ℤ) : List ℤ := add (smul (-d) (hom recip [1000000000] hiNum))
  (mul [d * 1000000000 ^ 6, 0, n * 1000000000 ^ 6] (hom recip [1000000000] hiDen))

/-- the reciprocal of the shape, special.py:16-24 -/
noncomputable def rec (z : ℝ) : ℝ := z * (1 + (1 - z) ^ 2 * RiceWeibull.garciaPoly z)

theorem ev_recip (z : ℝ) : ev recip z = 1000000000 * rec z := by
  simp only [recip, ev_mul, ev_add, ev_cons, ev_nil, rec, RiceWeibull.garciaPoly]
  push_cast
  ring

theorem ev_hom_recip (p : List ℤ) (z : ℝ) :
    ev (hom recip [1000000000] p) z * 1000000000 = 1000000000 ^ p.length * ev p (rec z) := by
  have h := ev_hom recip [1000000000] p (x := z) (by simp [ev_cons])
  have e : ev [1000000000] z = 1000000000 := by simp [ev_cons]
  rw [e, ev_recip, mul_div_cancel_left₀ _ (by norm_num)] at h
  exact h

theorem rec_lt {z : ℝ} (h0 : 0 < z) (h1 : z ≤ 2.7) : rec z ≤ 4 := by
  have h : on 0 27 10 (add [4000000000] (smul (-1) recip)) = true := by decide +kernel
  have := ev_on (by norm_num) h (x := z) (by push_cast; linarith) (by push_cast; norm_num at h1 ⊢; linarith)
  rw [ev_add, ev_smul, ev_recip] at this
  simp only [ev_cons, ev_nil] at this
  push_cast at this
  linarith

theorem part6 (u : ℝ) (hu : 0 ≤ u) : part u 6 = ev num6 u / ev den6 u := by
  unfold part
  simp only [Finset.prod_range_succ, Finset.prod_range_zero, fac, num6, den6, ev_mul, ev_pow, ev_cons, ev_nil]
  push_cast
  have h1 : 0 < 1 + 2 * u := by linarith
  have h2 : 0 < 4 + 4 * u := by linarith
  have h3 : 0 < 9 + 6 * u := by linarith
  have h4 : 0 < 16 + 8 * u := by linarith
  have h5 : 0 < 25 + 10 * u := by linarith
  have h6 : 0 < 36 + 12 * u := by linarith
  rw [one_mul, div_mul_div_comm, div_mul_div_comm, div_mul_div_comm, div_mul_div_comm, div_mul_div_comm]
  congr 1 <;> ring

theorem den6_pos {u : ℝ} (hu : 0 ≤ u) : 0 < ev den6 u := by
  simp only [den6, ev_mul, ev_cons, ev_nil]
  push_cast
  positivity

theorem part6_hi (u : ℝ) (hu : 0 ≤ u) : part u 6 * hi u 6 = ev hiNum u / ev hiDen u := by
  rw [part6 u hu, hi, div_mul_div_comm]
  simp only [hiNum, hiDen, ev_mul]
  generalize ev num6 u = A
  generalize ev den6 u = B
  simp only [ev_cons, ev_nil]
  push_cast
  congr 1 <;> ring

theorem le_of_gap {a b c n d : ℤ} (hc : 0 < c) (hd : 0 < d) (hg : on a b c (loGap n d) = true) {z : ℝ}
    (h0 : 0 < z) (h1 : z ≤ 2.7) (hr : 0 < rec z) (ha : a < c * z) (hb : c * z ≤ b) :
    n * z ^ 2 ≤ d * (Real.Gamma (1 + 2 * rec z) / Real.Gamma (1 + rec z) ^ 2 - 1) := by
  have h4 := rec_lt h0 h1
  set u := rec z with hu
  have hpos : 0 < 13 + 2 * u - u ^ 2 := by nlinarith
  have hd' : (0 : ℝ) < d := by exact_mod_cast hd
  have h7 : (0 : ℝ) < 4 * (7 + u) := by linarith
  have hle := le_ratio hr.le (d := (u ^ 2 - 1) ^ 2 / (4 * (7 + u))) (by positivity) (N := 6)
    (by push_cast; linarith) (by
      push_cast
      rw [show 4 * ((u ^ 2 - 1) ^ 2 / (4 * (7 + u))) * (6 + 1 + u) = (u ^ 2 - 1) ^ 2 by field_simp; ring])
  have hLD : 0 < ev loDen u := by
    simp only [loDen, ev_mul, ev_add, ev_cons, ev_nil]
    refine mul_pos (den6_pos hr.le) ?_
    push_cast
    nlinarith [mul_pos h7 hpos, sq_nonneg (u ^ 2 - 1)]
  have e : part u 6 * lo u ((u ^ 2 - 1) ^ 2 / (4 * (7 + u))) 6 = ev loNum u / ev loDen u := by
    rw [part6 u hr.le, lo]
    have hx : 0 < 2 * ((6 : ℕ) : ℝ) + 1 + 2 * u + (u ^ 2 - 1) ^ 2 / (4 * (7 + u)) - u ^ 2 := by
      have : 0 ≤ (u ^ 2 - 1) ^ 2 / (4 * (7 + u)) := by positivity
      push_cast; linarith
    rw [div_mul_div_comm, div_eq_div_iff (mul_pos (den6_pos hr.le) hx).ne' hLD.ne']
    simp only [loNum, loDen, ev_mul, ev_add]
    generalize ev num6 u = A
    generalize ev den6 u = B
    simp only [ev_cons, ev_nil]
    push_cast
    field_simp
    ring
  rw [e] at hle
  have h2 := ev_on hc hg ha hb
  have hN := ev_hom_recip loNum z
  have hD := ev_hom_recip loDen z
  rw [show loNum.length = 17 from by decide +kernel, ← hu] at hN
  rw [show loDen.length = 11 from by decide +kernel, ← hu] at hD
  have h3 : 0 ≤ ev (loGap n d) z * 1000000000 := by positivity
  have h5 : ev (loGap n d) z * 1000000000 = 1000000000 ^ 17 * (d * ev loNum u - (d + n * z ^ 2) * ev loDen u) := by
    simp only [loGap, ev_add, ev_smul, ev_mul]
    rw [add_mul, mul_assoc, hN, mul_assoc, hD]
    simp only [ev_cons, ev_nil]
    push_cast
    ring
  rw [h5] at h3
  have h6 : 0 ≤ d * ev loNum u - (d + n * z ^ 2) * ev loDen u := nonneg_of_mul_nonneg_right h3 (by positivity)
  have h8 : (d + n * z ^ 2) / d ≤ ev loNum u / ev loDen u := by
    rw [div_le_div_iff₀ hd' hLD]; linarith
  have h9 := h8.trans hle
  rw [div_le_iff₀ hd'] at h9
  linarith

theorem ge_of_gap {a b c n d : ℤ} (hc : 0 < c) (hd : 0 < d) (hg : on a b c (hiGap n d) = true) {z : ℝ}
    (h0 : 0 < z) (h1 : z ≤ 2.7) (hr : 0 < rec z) (ha : a < c * z) (hb : c * z ≤ b) :
    d * (Real.Gamma (1 + 2 * rec z) / Real.Gamma (1 + rec z) ^ 2 - 1) ≤ n * z ^ 2 := by
  have h4 := rec_lt h0 h1
  set u := rec z with hu
  have hpos : 0 < 13 + 2 * u - u ^ 2 := by nlinarith
  have hd' : (0 : ℝ) < d := by exact_mod_cast hd
  have hle := ratio_le hr.le (N := 6) (by push_cast; linarith)
  have hHD : 0 < ev hiDen u := by
    simp only [hiDen, ev_mul, ev_cons, ev_nil]
    refine mul_pos (den6_pos hr.le) ?_
    push_cast
    nlinarith
  have e := part6_hi u hr.le
  rw [e] at hle
  have h2 := ev_on hc hg ha hb
  have hN := ev_hom_recip hiNum z
  have hD := ev_hom_recip hiDen z
  rw [show hiNum.length = 15 from by decide +kernel, ← hu] at hN
  rw [show hiDen.length = 9 from by decide +kernel, ← hu] at hD
  have h3 : 0 ≤ ev (hiGap n d) z * 1000000000 := by positivity
  have h5 : ev (hiGap n d) z * 1000000000 = 1000000000 ^ 15 * ((d + n * z ^ 2) * ev hiDen u - d * ev hiNum u) := by
    simp only [hiGap, ev_add, ev_smul, ev_mul]
    rw [add_mul, mul_assoc, hN, mul_assoc, hD]
    simp only [ev_cons, ev_nil]
    push_cast
    ring
  rw [h5] at h3
  have h6 : 0 ≤ (d + n * z ^ 2) * ev hiDen u - d * ev hiNum u := nonneg_of_mul_nonneg_right h3 (by positivity)
  have h8 : ev hiNum u / ev hiDen u ≤ (d + n * z ^ 2) / d := by
    rw [div_le_div_iff₀ hHD hd']; linarith
  have h9 := hle.trans h8
  rw [le_div_iff₀ hd'] at h9
  linarith

/-! ## the certificates -/

set_option maxRecDepth 20000

theorem lo_14 : on 0 14 10 (loGap (999001 ^ 2) (1000000 ^ 2)) = true := by decide +kernel
theorem lo_2 : on 0 2 1 (loGap (911 ^ 2) (1000 ^ 2)) = true := by decide +kernel
theorem hi_27 : on 0 27 10 (hiGap (1000999 ^ 2) (1000000 ^ 2)) = true := by decide +kernel
theorem hi_15 : on 1499 2700 1000 (hiGap (9979 ^ 2) (10000 ^ 2)) = true := by decide +kernel
theorem hi_2 : on 1999 2700 1000 (hiGap (919 ^ 2) (1000 ^ 2)) = true := by decide +kernel
theorem hi_25 : on 2499 2700 1000 (hiGap (499 ^ 2) (1000 ^ 2)) = true := by decide +kernel

end Verif.Weib
