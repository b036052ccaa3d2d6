import Verif.Lemmas.PolyCheck
import Mathlib.Analysis.SpecialFunctions.Stirling
import Mathlib.Analysis.SpecialFunctions.Gamma.BohrMollerup
import Mathlib.Analysis.SpecialFunctions.Complex.LogBounds
import Mathlib.Analysis.SpecialFunctions.Log.Deriv
import Mathlib.Analysis.Convex.Deriv

/-!
# How far a Lanczos approximation is from the Gamma function

An approximation of the form `log Γ(z) ≈ log √(2π) + (z - 1/2) log(z + g) - (z + g) + log S(z)`, with a rational `S`, has an
error `e(z)` whose increments `e(z + 1) - e(z)` are elementary and whose limit at infinity is known by Stirling's formula.
The increments are compared with those of a function `D` that tends to zero: the difference is convex, because its second
derivative is a rational function with nonnegative coefficients, and tends to zero, so it is nonnegative.
-/

namespace Verif.Lanczos
open Verif.Poly Filter Topology

/-! ## convex functions and telescoping -/

/-- a convex function that tends to zero is nonnegative -/
theorem convex_nonneg {u : ℝ → ℝ} (hc : ConvexOn ℝ (Set.Ioi 0) u) (hl : Tendsto u atTop (𝓝 0)) {x : ℝ} (hx : 0 < x) :
    0 ≤ u x := by
  have step : ∀ y : ℝ, 0 < y → u (y + 1) ≤ u y := by
    intro y hy
    have h1 : ∀ t : ℝ, 1 ≤ t → u (y + 1) ≤ (1 - 1 / t) * u y + 1 / t * u (y + t) := by
      intro t ht
      have ht0 : 0 < t := by linarith
      have h2 := hc.2 (Set.mem_Ioi.2 hy) (Set.mem_Ioi.2 (by linarith : 0 < y + t))
        (by rw [sub_nonneg, div_le_one ht0]; exact ht : (0 : ℝ) ≤ 1 - 1 / t) (by positivity : (0 : ℝ) ≤ 1 / t) (by ring)
      simp only [smul_eq_mul] at h2
      have h3 : (1 - 1 / t) * y + 1 / t * (y + t) = y + 1 := by field_simp; ring
      rwa [h3] at h2
    have h4 : Tendsto (fun t : ℝ => (1 - 1 / t) * u y + 1 / t * u (y + t)) atTop (𝓝 ((1 - 0) * u y + 0 * 0)) := by
      have h5 : Tendsto (fun t : ℝ => 1 / t) atTop (𝓝 0) := by
        simpa using tendsto_inv_atTop_zero (𝕜 := ℝ)
      have h6 : Tendsto (fun t : ℝ => u (y + t)) atTop (𝓝 0) := hl.comp (tendsto_atTop_add_const_left _ _ tendsto_id)
      exact ((tendsto_const_nhds.sub h5).mul tendsto_const_nhds).add (h5.mul h6)
    have h7 := ge_of_tendsto h4 (Filter.eventually_atTop.2 ⟨1, fun t ht => h1 t ht⟩)
    simpa using h7
  have h8 : ∀ n : ℕ, u (x + n) ≤ u x := by
    intro n
    induction n with
    | zero => simp
    | succ n ih =>
      have := step (x + n) (by positivity)
      push_cast
      rw [← add_assoc]
      linarith
  have h9 : Tendsto (fun n : ℕ => u (x + n)) atTop (𝓝 0) :=
    hl.comp (tendsto_atTop_add_const_left _ _ tendsto_natCast_atTop_atTop)
  exact le_of_tendsto' h9 h8

/-- increments bounded by those of `D` bound the distance from the limit -/
theorem telescope {e D : ℝ → ℝ} {l x : ℝ} (hx : 0 < x) (h : ∀ z : ℝ, 0 < z → e (z + 1) - e z ≤ D z - D (z + 1))
    (he : Tendsto (fun n : ℕ => e (x + n)) atTop (𝓝 l)) (hD : Tendsto D atTop (𝓝 0)) : l ≤ e x + D x := by
  have h1 : ∀ n : ℕ, e (x + n) + D (x + n) ≤ e x + D x := by
    intro n
    induction n with
    | zero => simp
    | succ n ih =>
      have := h (x + n) (by positivity)
      push_cast
      rw [← add_assoc]
      linarith
  have h2 : Tendsto (fun n : ℕ => D (x + n)) atTop (𝓝 0) :=
    hD.comp (tendsto_atTop_add_const_left _ _ tendsto_natCast_atTop_atTop)
  have h3 := he.add h2
  rw [add_zero] at h3
  exact le_of_tendsto' h3 h1

/-! ## Stirling's formula -/

theorem log_gamma_add (x : ℝ) (hx : 0 < x) (n : ℕ) :
    Real.log (Real.Gamma (x + (n + 1 : ℕ))) = Real.log (Real.Gamma x) + ∑ m ∈ Finset.range (n + 1), Real.log (x + m) := by
  generalize n + 1 = k
  induction k with
  | zero => simp
  | succ k ih =>
    have h : x + ((k + 1 : ℕ) : ℝ) = (x + k) + 1 := by push_cast; ring
    have h0 : 0 < x + k := by positivity
    rw [h, Real.Gamma_add_one h0.ne', Real.log_mul h0.ne' (Real.Gamma_pos_of_pos h0).ne', ih, Finset.sum_range_succ]
    ring

/-- the logarithm of Γ at `x + n + 1` -/
theorem stirling_gamma {x : ℝ} (hx : 0 < x) :
    Tendsto (fun n : ℕ => Real.log (Real.Gamma (x + (n + 1 : ℕ))) -
      ((x + n + 1 / 2) * Real.log n - n)) atTop (𝓝 (Real.log (Real.sqrt (2 * Real.pi)))) := by
  have h1 := Real.BohrMollerup.tendsto_log_gamma hx
  have h2 : Tendsto (fun n : ℕ => Real.log (Stirling.stirlingSeq n)) atTop (𝓝 (Real.log (Real.sqrt Real.pi))) :=
    ((Real.continuousAt_log (by positivity)).tendsto).comp Stirling.tendsto_stirlingSeq_sqrt_pi
  have h3 : Tendsto (fun n : ℕ => Real.log (Real.Gamma x) - Real.BohrMollerup.logGammaSeq x n +
      Real.log (Stirling.stirlingSeq n) + 1 / 2 * Real.log 2) atTop
      (𝓝 (Real.log (Real.Gamma x) - Real.log (Real.Gamma x) + Real.log (Real.sqrt Real.pi) + 1 / 2 * Real.log 2)) :=
    ((tendsto_const_nhds.sub h1).add h2).add tendsto_const_nhds
  have h4 : Real.log (Real.Gamma x) - Real.log (Real.Gamma x) + Real.log (Real.sqrt Real.pi) + 1 / 2 * Real.log 2 =
      Real.log (Real.sqrt (2 * Real.pi)) := by
    rw [Real.log_sqrt (by positivity), Real.log_sqrt (by positivity), Real.log_mul (by norm_num) (by positivity)]
    ring
  rw [h4] at h3
  refine h3.congr' ?_
  filter_upwards [eventually_ge_atTop 1] with n hn
  have hn0 : (0 : ℝ) < n := by exact_mod_cast hn
  rw [log_gamma_add x hx, Stirling.log_stirlingSeq_formula, Real.BohrMollerup.logGammaSeq,
    Real.log_mul (by norm_num) hn0.ne', Real.log_div hn0.ne' (Real.exp_pos 1).ne', Real.log_exp]
  ring

/-- the elementary part of the approximation at `x + n + 1` -/
theorem tendsto_power (x g : ℝ) :
    Tendsto (fun n : ℕ => ((x + (n + 1 : ℕ)) - 1 / 2) * Real.log ((x + (n + 1 : ℕ)) + g) - ((x + (n + 1 : ℕ)) + g) -
      ((x + n + 1 / 2) * Real.log n - n)) atTop (𝓝 0) := by
  set k := x + 1 + g with hk
  have h1 : Tendsto (fun t : ℝ => t * Real.log (1 + k / t)) atTop (𝓝 k) := Real.tendsto_mul_log_one_add_div_atTop k
  have h0 : Tendsto (fun t : ℝ => k / t) atTop (𝓝 0) := tendsto_const_nhds.div_atTop tendsto_id
  have h2 : Tendsto (fun t : ℝ => Real.log (1 + k / t)) atTop (𝓝 0) := by
    have h3 : Tendsto (fun t : ℝ => 1 + k / t) atTop (𝓝 (1 + 0)) := tendsto_const_nhds.add h0
    have h4 := ((Real.continuousAt_log (by norm_num : (1 : ℝ) + 0 ≠ 0)).tendsto).comp h3
    rw [add_zero, Real.log_one] at h4
    exact h4
  have h5 : Tendsto (fun t : ℝ => t * Real.log (1 + k / t) + (x + 1 / 2) * Real.log (1 + k / t) - k) atTop
      (𝓝 (k + (x + 1 / 2) * 0 - k)) := (h1.add (h2.const_mul _)).sub tendsto_const_nhds
  have h6 := h5.comp tendsto_natCast_atTop_atTop
  have h7 : k + (x + 1 / 2) * 0 - k = 0 := by ring
  rw [h7] at h6
  refine h6.congr' ?_
  have h8 : ∀ᶠ n : ℕ in atTop, (0 : ℝ) < n + k :=
    (tendsto_atTop_add_const_right _ k tendsto_natCast_atTop_atTop).eventually_gt_atTop 0
  filter_upwards [eventually_ge_atTop 1, h8] with n hn hnk
  have hn0 : (0 : ℝ) < n := by exact_mod_cast hn
  have h9 : (x + ((n + 1 : ℕ) : ℝ)) + g = n * (1 + k / n) := by
    rw [hk]; push_cast; field_simp; ring
  have h10 : (1 : ℝ) + k / n ≠ 0 := by
    have : (1 : ℝ) + k / n = (n + k) / n := by field_simp
    rw [this]; positivity
  simp only [Function.comp]
  rw [h9, Real.log_mul hn0.ne' h10]
  have h11 : (n : ℝ) * (1 + k / n) = n + k := by field_simp
  rw [h11]
  push_cast
  ring

/-! ## the series and the error -/

/-- logarithm of the approximation without its constant factor -/
noncomputable def lam (g : ℝ) (S : ℝ → ℝ) (z : ℝ) : ℝ := (z - 1 / 2) * Real.log (z + g) - (z + g) + Real.log (S z)

/-- logarithm of the ratio between the approximation and Γ -/
noncomputable def err (g : ℝ) (S : ℝ → ℝ) (z : ℝ) : ℝ :=
  Real.log (Real.sqrt (2 * Real.pi)) + lam g S z - Real.log (Real.Gamma z)

theorem err_tendsto (g : ℝ) {S : ℝ → ℝ} {c : ℝ} (hc : c ≠ 0) (hS : Tendsto S atTop (𝓝 c)) {x : ℝ} (hx : 0 < x) :
    Tendsto (fun n : ℕ => err g S (x + n)) atTop (𝓝 (Real.log c)) := by
  rw [← tendsto_add_atTop_iff_nat 1]
  have h1 := tendsto_power x g
  have h2 := stirling_gamma hx
  have h3 : Tendsto (fun n : ℕ => Real.log (S (x + (n + 1 : ℕ)))) atTop (𝓝 (Real.log c)) := by
    have h4 : Tendsto (fun n : ℕ => x + ((n + 1 : ℕ) : ℝ)) atTop atTop :=
      tendsto_atTop_add_const_left _ _ (tendsto_natCast_atTop_atTop.comp (tendsto_add_atTop_nat 1))
    exact ((Real.continuousAt_log hc).tendsto).comp (hS.comp h4)
  have h5 := ((tendsto_const_nhds (x := Real.log (Real.sqrt (2 * Real.pi)))).add (h1.sub h2)).add h3
  have h6 : Real.log (Real.sqrt (2 * Real.pi)) + (0 - Real.log (Real.sqrt (2 * Real.pi))) + Real.log c = Real.log c := by
    ring
  rw [h6] at h5
  refine h5.congr fun n => ?_
  simp only [err, lam]
  ring

/-- the increments of the error -/
noncomputable def incr (g : ℝ) (N : List ℤ) (n : ℕ) (z : ℝ) : ℝ :=
  (z + 1 / 2) * Real.log (z + g + 1) - (z - 1 / 2) * Real.log (z + g) - 1 + Real.log (ev (sh N) z) - Real.log (ev N z) -
    Real.log (z + n)

theorem err_succ {g : ℝ} {S : ℝ → ℝ} {N : List ℤ} {n : ℕ} {K : ℝ} (hK : 0 < K) (hN : posit N = true)
    (hS : ∀ z : ℝ, 0 < z → S z = ev N z / (K * ∏ i ∈ Finset.range n, (z + i))) {z : ℝ} (hz : 0 < z) :
    err g S (z + 1) - err g S z = incr g N n z := by
  have hp : ∀ w : ℝ, 0 < w → 0 < ∏ i ∈ Finset.range n, (w + i) := fun w hw =>
    Finset.prod_pos fun i _ => by positivity
  have h1 : ∀ w : ℝ, 0 < w → Real.log (S w) = Real.log (ev N w) - (Real.log K + Real.log (∏ i ∈ Finset.range n, (w + i))) := by
    intro w hw
    rw [hS w hw, Real.log_div (ev_pos hN hw.le).ne' (mul_pos hK (hp w hw)).ne', Real.log_mul hK.ne' (hp w hw).ne']
  have h2 : (∏ i ∈ Finset.range n, (z + 1 + i)) * z = (∏ i ∈ Finset.range n, (z + i)) * (z + n) := by
    rw [← Finset.prod_range_succ (fun i : ℕ => z + (i : ℝ)), Finset.prod_range_succ']
    simp only [Nat.cast_add, Nat.cast_one, Nat.cast_zero, add_zero]
    congr 1
    exact Finset.prod_congr rfl fun i _ => by ring
  have h3 : Real.log (∏ i ∈ Finset.range n, (z + 1 + i)) + Real.log z =
      Real.log (∏ i ∈ Finset.range n, (z + i)) + Real.log (z + n) := by
    rw [← Real.log_mul (hp _ (by positivity)).ne' hz.ne', h2,
      Real.log_mul (hp _ hz).ne' (by positivity)]
  have h4 : Real.log (Real.Gamma (z + 1)) = Real.log z + Real.log (Real.Gamma z) := by
    rw [Real.Gamma_add_one hz.ne', Real.log_mul hz.ne' (Real.Gamma_pos_of_pos hz).ne']
  simp only [err, lam, incr]
  rw [h1 z hz, h1 (z + 1) (by positivity), h4, ev_sh]
  have h5 : z + 1 + g = z + g + 1 := by ring
  rw [h5]
  have h6 : z + 1 - 1 / 2 = z + 1 / 2 := by ring
  rw [h6]
  linarith

/-! ## limits at infinity -/

theorem ev_sh_le {p : List ℤ} (hp : nonneg p = true) {z : ℝ} (hz : 0 < z) :
    ev p z ≤ ev p (z + 1) ∧ ev p (z + 1) ≤ (1 + 1 / z) ^ p.length * ev p z := by
  induction p with
  | nil => simp
  | cons a p ih =>
    simp only [nonneg, List.all_cons, Bool.and_eq_true, decide_eq_true_eq] at hp
    have ha : (0 : ℝ) ≤ a := by exact_mod_cast hp.1
    obtain ⟨h1, h2⟩ := ih hp.2
    have h0 := ev_nonneg hp.2 hz.le
    have hq : 1 ≤ (1 + 1 / z) ^ p.length := one_le_pow₀ (by rw [le_add_iff_nonneg_right]; positivity)
    have hq1 : 1 ≤ (1 + 1 / z) ^ (p.length + 1) := one_le_pow₀ (by rw [le_add_iff_nonneg_right]; positivity)
    simp only [ev_cons, List.length_cons]
    refine ⟨by nlinarith, ?_⟩
    have h3 : (z + 1) * ev p (z + 1) ≤ (1 + 1 / z) ^ (p.length + 1) * (z * ev p z) := by
      have h4 : (1 + 1 / z) ^ (p.length + 1) * (z * ev p z) = (z + 1) * ((1 + 1 / z) ^ p.length * ev p z) := by
        rw [pow_succ]; field_simp
      rw [h4]
      exact mul_le_mul_of_nonneg_left h2 (by positivity)
    have h5 : (a : ℝ) ≤ (1 + 1 / z) ^ (p.length + 1) * a := le_mul_of_one_le_left ha hq1
    linarith

theorem log_ev_sh {p : List ℤ} (hp : posit p = true) :
    Tendsto (fun z : ℝ => Real.log (ev (sh p) z) - Real.log (ev p z)) atTop (𝓝 0) := by
  have hn : nonneg p = true := by
    cases p with
    | nil => rfl
    | cons a p =>
      simp only [posit, Bool.and_eq_true, decide_eq_true_eq] at hp
      simp only [nonneg, List.all_cons, Bool.and_eq_true, decide_eq_true_eq]
      exact ⟨hp.1.le, hp.2⟩
  have h1 : Tendsto (fun z : ℝ => Real.log ((1 + 1 / z) ^ p.length)) atTop (𝓝 0) := by
    have h5 : Tendsto (fun t : ℝ => 1 / t) atTop (𝓝 0) := by simpa using tendsto_inv_atTop_zero (𝕜 := ℝ)
    have h2 : Tendsto (fun z : ℝ => (1 + 1 / z) ^ p.length) atTop (𝓝 ((1 + 0) ^ p.length)) :=
      (tendsto_const_nhds.add h5).pow _
    have h3 := ((Real.continuousAt_log (by norm_num : ((1 : ℝ) + 0) ^ p.length ≠ 0)).tendsto).comp h2
    rw [add_zero, one_pow, Real.log_one] at h3
    exact h3
  refine tendsto_of_tendsto_of_tendsto_of_le_of_le' tendsto_const_nhds h1 ?_ ?_
  · filter_upwards [eventually_gt_atTop 0] with z hz
    rw [ev_sh]
    have := (ev_sh_le hn hz).1
    have := Real.log_le_log (ev_pos hp hz.le) this
    linarith
  · filter_upwards [eventually_gt_atTop 0] with z hz
    rw [ev_sh]
    have h2 := (ev_sh_le hn hz).2
    have h3 := Real.log_le_log (ev_pos hp (by linarith : (0 : ℝ) ≤ z + 1)) h2
    rw [Real.log_mul (by positivity) (ev_pos hp hz.le).ne'] at h3
    linarith

theorem incr_tendsto {g : ℝ} {N : List ℤ} {n : ℕ} (hN : posit N = true) : Tendsto (incr g N n) atTop (𝓝 0) := by
  have h0 : ∀ k : ℝ, Tendsto (fun t : ℝ => Real.log (1 + k / t)) atTop (𝓝 0) := by
    intro k
    have h0 : Tendsto (fun t : ℝ => k / t) atTop (𝓝 0) := tendsto_const_nhds.div_atTop tendsto_id
    have h3 : Tendsto (fun t : ℝ => 1 + k / t) atTop (𝓝 (1 + 0)) := tendsto_const_nhds.add h0
    have h4 := ((Real.continuousAt_log (by norm_num : (1 : ℝ) + 0 ≠ 0)).tendsto).comp h3
    rw [add_zero, Real.log_one] at h4
    exact h4
  have hA := Real.tendsto_mul_log_one_add_div_atTop (g + 1)
  have hB := Real.tendsto_mul_log_one_add_div_atTop g
  have h1 : Tendsto (fun t : ℝ => t * Real.log (1 + (g + 1) / t) + 1 / 2 * Real.log (1 + (g + 1) / t) -
      (t * Real.log (1 + g / t) - 1 / 2 * Real.log (1 + g / t)) - 1 - Real.log (1 + n / t) +
      (Real.log (ev (sh N) t) - Real.log (ev N t))) atTop
      (𝓝 ((g + 1) + 1 / 2 * 0 - (g - 1 / 2 * 0) - 1 - 0 + 0)) :=
    ((((hA.add ((h0 _).const_mul _)).sub (hB.sub ((h0 _).const_mul _))).sub tendsto_const_nhds).sub (h0 n)).add
      (log_ev_sh hN)
  have h2 : (g + 1) + 1 / 2 * 0 - (g - 1 / 2 * 0) - 1 - 0 + 0 = (0 : ℝ) := by ring
  rw [h2] at h1
  refine h1.congr' ?_
  filter_upwards [eventually_gt_atTop 0, eventually_gt_atTop (-g)] with t ht htg
  have e : ∀ k : ℝ, 0 < t + k → Real.log (t + k) = Real.log t + Real.log (1 + k / t) := by
    intro k hk
    have h3 : t + k = t * (1 + k / t) := by field_simp
    have h4 : 1 + k / t ≠ 0 := by
      have : 1 + k / t = (t + k) / t := by field_simp
      rw [this]; positivity
    rw [h3, Real.log_mul ht.ne' h4]
  simp only [incr]
  have h5 : t + g + 1 = t + (g + 1) := by ring
  rw [h5, e (g + 1) (by linarith), e g (by linarith), e n (by positivity)]
  ring

/-! ## derivatives -/

theorem hasDerivAt_logev {p : List ℤ} {z : ℝ} (h : ev p z ≠ 0) :
    HasDerivAt (fun z => Real.log (ev p z)) (ev (der p) z / ev p z) z := (hasDerivAt_ev p z).log h

noncomputable def incr1 (g : ℝ) (N : List ℤ) (n : ℕ) (z : ℝ) : ℝ :=
  Real.log (z + g + 1) + (z + 1 / 2) / (z + g + 1) - (Real.log (z + g) + (z - 1 / 2) / (z + g)) +
    ev (der (sh N)) z / ev (sh N) z - ev (der N) z / ev N z - 1 / (z + n)

/-- second derivative of `log p` times `p ^ 2` -/
def logder (p : List ℤ) : List ℤ := add (mul (der (der p)) p) (smul (-1) (mul (der p) (der p)))

noncomputable def incr2 (g : ℝ) (N : List ℤ) (n : ℕ) (z : ℝ) : ℝ :=
  1 / (z + g + 1) + (g + 1 / 2) / (z + g + 1) ^ 2 - (1 / (z + g) + (g + 1 / 2) / (z + g) ^ 2) +
    ev (logder (sh N)) z / ev (sh N) z ^ 2 - ev (logder N) z / ev N z ^ 2 + 1 / (z + n) ^ 2

theorem hasDerivAt_incr {g : ℝ} (hg : 0 ≤ g) {N : List ℤ} {n : ℕ} (hN : posit N = true) (hM : posit (sh N) = true) {z : ℝ}
    (hz : 0 < z) : HasDerivAt (incr g N n) (incr1 g N n z) z := by
  have i := hasDerivAt_id z
  have hA : z + g + 1 ≠ 0 := by positivity
  have hB : z + g ≠ 0 := by positivity
  have hC : z + (n : ℝ) ≠ 0 := by positivity
  have a1 : HasDerivAt (fun z : ℝ => Real.log (z + g + 1)) (1 / (z + g + 1)) z := ((i.add_const g).add_const 1).log hA
  have a2 : HasDerivAt (fun z : ℝ => Real.log (z + g)) (1 / (z + g)) z := (i.add_const g).log hB
  have a3 : HasDerivAt (fun z : ℝ => Real.log (z + n)) (1 / (z + n)) z := (i.add_const (n : ℝ)).log hC
  have b1 : HasDerivAt (fun z : ℝ => z + 1 / 2) 1 z := i.add_const _
  have b2 : HasDerivAt (fun z : ℝ => z - 1 / 2) 1 z := i.sub_const _
  have h := (((((b1.mul a1).sub (b2.mul a2)).sub_const 1).add (hasDerivAt_logev (ev_pos hM hz.le).ne')).sub
    (hasDerivAt_logev (ev_pos hN hz.le).ne')).sub a3
  refine h.congr_deriv ?_
  simp only [incr1]
  ring

theorem hasDerivAt_quot {p : List ℤ} {z : ℝ} (h : ev p z ≠ 0) :
    HasDerivAt (fun z => ev (der p) z / ev p z) (ev (logder p) z / ev p z ^ 2) z := by
  refine ((hasDerivAt_ev (der p) z).div (hasDerivAt_ev p z) h).congr_deriv ?_
  simp only [logder, ev_add, ev_mul, ev_smul]
  push_cast
  ring

theorem hasDerivAt_incr1 {g : ℝ} (hg : 0 ≤ g) {N : List ℤ} {n : ℕ} (hN : posit N = true) (hM : posit (sh N) = true) {z : ℝ}
    (hz : 0 < z) : HasDerivAt (incr1 g N n) (incr2 g N n z) z := by
  have i := hasDerivAt_id z
  have hA : z + g + 1 ≠ 0 := by positivity
  have hB : z + g ≠ 0 := by positivity
  have hC : z + (n : ℝ) ≠ 0 := by positivity
  have a1 : HasDerivAt (fun z : ℝ => Real.log (z + g + 1)) (1 / (z + g + 1)) z := ((i.add_const g).add_const 1).log hA
  have a2 : HasDerivAt (fun z : ℝ => Real.log (z + g)) (1 / (z + g)) z := (i.add_const g).log hB
  have b1 : HasDerivAt (fun z : ℝ => z + 1 / 2) 1 z := i.add_const _
  have b2 : HasDerivAt (fun z : ℝ => z - 1 / 2) 1 z := i.sub_const _
  have d1 : HasDerivAt (fun z : ℝ => z + g + 1) 1 z := (i.add_const g).add_const 1
  have d2 : HasDerivAt (fun z : ℝ => z + g) 1 z := i.add_const g
  have d3 : HasDerivAt (fun z : ℝ => z + (n : ℝ)) 1 z := i.add_const (n : ℝ)
  have h := (((((a1.add (b1.div d1 hA)).sub (a2.add (b2.div d2 hB))).add (hasDerivAt_quot (ev_pos hM hz.le).ne')).sub
    (hasDerivAt_quot (ev_pos hN hz.le).ne'))).sub ((hasDerivAt_const z (1 : ℝ)).div d3 hC)
  refine h.congr_deriv ?_
  simp only [incr2]
  ring

/-! ## the comparison functions -/

/-- `a / (q (z + d) ^ k)` -/
structure Term where
  a : ℤ
  q : ℤ
  d : ℕ
  k : ℕ

noncomputable def Term.val (t : Term) (z : ℝ) : ℝ := t.a / t.q * ((z + t.d) ^ t.k)⁻¹

noncomputable def cmp (l : List Term) (z : ℝ) : ℝ := (l.map fun t => t.val z).sum

/-- minus the function one step further -/
def Term.step (t : Term) : Term := ⟨-t.a, t.q, t.d + 1, t.k⟩

def diffs (l : List Term) : List Term := l ++ l.map Term.step

theorem cmp_append (l m : List Term) (z : ℝ) : cmp (l ++ m) z = cmp l z + cmp m z := by simp [cmp]

theorem cmp_diffs (l : List Term) (z : ℝ) : cmp (diffs l) z = cmp l z - cmp l (z + 1) := by
  rw [diffs, cmp_append, sub_eq_add_neg]
  congr 1
  induction l with
  | nil => simp [cmp]
  | cons t l ih =>
    simp only [cmp, List.map_cons, List.sum_cons] at ih ⊢
    rw [ih]
    simp only [Term.step, Term.val]
    push_cast
    rw [show z + ((t.d : ℝ) + 1) = z + 1 + t.d by ring]
    ring

def okTerm (t : Term) : Bool := decide (0 < t.q) && decide (0 < t.d) && decide (0 < t.k)

def Term.der (t : Term) : Term := ⟨-t.a * t.k, t.q, t.d, t.k + 1⟩

theorem Term.hasDerivAt (t : Term) (hk : 0 < t.k) {z : ℝ} (hz : 0 < z) : HasDerivAt t.val (t.der.val z) z := by
  obtain ⟨a, q, d, k⟩ := t
  obtain ⟨k, rfl⟩ : ∃ m, k = m + 1 := ⟨k - 1, by simp only at hk; omega⟩
  have h0 : z + (d : ℝ) ≠ 0 := by positivity
  have h1 : HasDerivAt (fun z : ℝ => (z + (d : ℝ)) ^ (k + 1)) (((k + 1 : ℕ) : ℝ) * (z + d) ^ k * 1) z := by
    exact ((hasDerivAt_id z).add_const (d : ℝ)).pow (k + 1)
  have h2 := (h1.inv (pow_ne_zero _ h0)).const_mul ((a : ℝ) / q)
  refine h2.congr_deriv ?_
  simp only [Term.val, Term.der]
  push_cast
  rw [← pow_mul, show (k + 1) * 2 = k + (k + 1 + 1) by ring, pow_add]
  field_simp

theorem cmp_hasDerivAt (l : List Term) (h : l.all okTerm = true) {z : ℝ} (hz : 0 < z) :
    HasDerivAt (cmp l) (cmp (l.map Term.der) z) z := by
  induction l with
  | nil => exact hasDerivAt_const z (0 : ℝ)
  | cons t l ih =>
    simp only [List.all_cons, Bool.and_eq_true] at h
    have hk : 0 < t.k := by
      have := h.1
      simp only [okTerm, Bool.and_eq_true, decide_eq_true_eq] at this
      exact this.2
    exact (t.hasDerivAt hk hz).add (ih h.2)

theorem ok_der (l : List Term) (h : l.all okTerm = true) : (l.map Term.der).all okTerm = true := by
  rw [List.all_map]
  refine List.all_eq_true.2 fun t ht => ?_
  have := List.all_eq_true.1 h t ht
  simp only [okTerm, Bool.and_eq_true, decide_eq_true_eq] at this
  simp [okTerm, Term.der, this.1.1, this.1.2]

theorem cmp_tendsto (l : List Term) (h : l.all okTerm = true) : Tendsto (cmp l) atTop (𝓝 0) := by
  induction l with
  | nil => exact tendsto_const_nhds
  | cons t l ih =>
    simp only [List.all_cons, Bool.and_eq_true] at h
    have hk : t.k ≠ 0 := by
      have := h.1
      simp only [okTerm, Bool.and_eq_true, decide_eq_true_eq] at this
      omega
    have h1 : Tendsto (fun z : ℝ => (z + (t.d : ℝ)) ^ t.k) atTop atTop :=
      (tendsto_pow_atTop hk).comp (tendsto_atTop_add_const_right _ _ tendsto_id)
    have h2 : Tendsto t.val atTop (𝓝 ((t.a : ℝ) / t.q * 0)) := (h1.inv_tendsto_atTop).const_mul _
    have h3 := h2.add (ih h.2)
    rw [mul_zero, add_zero] at h3
    refine h3.congr fun z => ?_
    simp [cmp]

/-! ## the finite computation -/

/-- a term as a rational function -/
def Term.rat (t : Term) : Rat' := ⟨[t.a], smul t.q (pow [(t.d : ℤ), 1] t.k)⟩

theorem Term.rat_val (t : Term) (z : ℝ) : t.rat.val z = t.val z := by
  simp only [Term.rat, Rat'.val, Term.val, ev_smul, ev_pow, ev_cons, ev_nil]
  push_cast
  rw [mul_zero, add_zero, add_zero, mul_one, add_comm (t.d : ℝ) z, div_mul_eq_div_div, div_eq_mul_inv (_ / _)]

/-- `-sign` times the second derivative of the increments, with `g = G / 2` -/
def incrRat (sign G : ℤ) (N : List ℤ) (n : ℕ) : List Rat' :=
  [⟨[4 * sign], mul [G + 2, 2] [G, 2]⟩, ⟨[-(2 * G + 2) * sign], pow [G + 2, 2] 2⟩, ⟨[(2 * G + 2) * sign], pow [G, 2] 2⟩,
    ⟨smul (-sign) (logder (sh N)), pow (sh N) 2⟩, ⟨smul sign (logder N), pow N 2⟩, ⟨[-sign], pow [(n : ℤ), 1] 2⟩]

theorem incrRat_val (sign G : ℤ) (hG : 0 ≤ G) {N : List ℤ} {n : ℕ} (hN : posit N = true) (hM : posit (sh N) = true) {z : ℝ}
    (hz : 0 < z) : ((incrRat sign G N n).map fun r => r.val z).sum = -(sign * incr2 (G / 2) N n z) := by
  have h1 := (ev_pos hN hz.le).ne'
  have h2 := (ev_pos hM hz.le).ne'
  have hG' : (0 : ℝ) ≤ G := by exact_mod_cast hG
  have hA : z + G / 2 + 1 ≠ 0 := by positivity
  have hB : z + (G : ℝ) / 2 ≠ 0 := by positivity
  have hC : z + (n : ℝ) ≠ 0 := by positivity
  have eA : ev [G + 2, 2] z = 2 * (z + G / 2 + 1) := by simp only [ev_cons, ev_nil]; push_cast; ring
  have eB : ev [G, 2] z = 2 * (z + G / 2) := by simp only [ev_cons, ev_nil]; push_cast; ring
  have eC : ev [(n : ℤ), 1] z = z + n := by simp only [ev_cons, ev_nil]; push_cast; ring
  have e1 : ∀ a : ℤ, ev [a] z = a := by intro a; simp [ev_cons]
  simp only [incrRat, List.map_cons, List.map_nil, List.sum_cons, List.sum_nil, Rat'.val, ev_mul, ev_pow, ev_smul, eA, eB, eC,
    e1, incr2]
  generalize ev N z = a at *
  generalize ev (sh N) z = b at *
  generalize ev (logder N) z = a2 at *
  generalize ev (logder (sh N)) z = b2 at *
  have hx : 1 / (z + G / 2 + 1) - 1 / (z + (G : ℝ) / 2) = -1 / ((z + G / 2 + 1) * (z + G / 2)) := by
    field_simp; ring
  have hy : ((4 * sign : ℤ) : ℝ) / (2 * (z + G / 2 + 1) * (2 * (z + G / 2))) =
      -(sign * (1 / (z + G / 2 + 1) - 1 / (z + (G : ℝ) / 2))) := by
    rw [hx]; push_cast; field_simp; ring
  rw [hy]
  push_cast
  have hw : ∀ y : ℝ, (2 * y) ^ 2 = 4 * y ^ 2 := by intro y; ring
  rw [hw, hw]
  field_simp
  ring

/-- what is computed: the second derivative of the difference has nonnegative coefficients -/
def certificate (sign G : ℤ) (N : List ℤ) (n : ℕ) (l : List Term) : Bool :=
  let rs := incrRat sign G N n ++ (diffs l).map fun t => t.der.der.rat
  rs.all (fun r => posit r.den) && nonneg (Rat'.total rs).num

theorem ok_diffs (l : List Term) (h : l.all okTerm = true) : (diffs l).all okTerm = true := by
  simp only [diffs, List.all_append, List.all_map, Bool.and_eq_true]
  refine ⟨h, List.all_eq_true.2 fun t ht => ?_⟩
  have := List.all_eq_true.1 h t ht
  simp only [okTerm, Bool.and_eq_true, decide_eq_true_eq] at this
  simp [okTerm, Term.step, this.1.1, this.2]

/-- the increments, with a sign, are at most those of the comparison function -/
theorem incr_le {sign G : ℤ} (hG : 0 ≤ G) {N : List ℤ} {n : ℕ} (hN : posit N = true) (hM : posit (sh N) = true)
    {l : List Term} (hl : l.all okTerm = true) (hc : certificate sign G N n l = true) {z : ℝ} (hz : 0 < z) :
    sign * incr (G / 2) N n z ≤ cmp l z - cmp l (z + 1) := by
  have hG' : (0 : ℝ) ≤ (G : ℝ) / 2 := by have : (0 : ℝ) ≤ G := by exact_mod_cast hG
                                         positivity
  have hd := ok_diffs l hl
  rw [← cmp_diffs, ← sub_nonneg]
  refine convex_nonneg (u := fun z => cmp (diffs l) z - sign * incr (G / 2) N n z) ?_ ?_ hz
  · have hi : interior (Set.Ioi (0 : ℝ)) = Set.Ioi 0 := interior_Ioi
    have hD : ∀ x : ℝ, 0 < x → HasDerivAt (fun z => cmp (diffs l) z - sign * incr (G / 2) N n z)
        (cmp ((diffs l).map Term.der) x - sign * incr1 (G / 2) N n x) x := fun x hx =>
      (cmp_hasDerivAt _ hd hx).sub ((hasDerivAt_incr hG' hN hM hx).const_mul _)
    have hD2 : ∀ x : ℝ, 0 < x → HasDerivAt (fun z => cmp ((diffs l).map Term.der) z - sign * incr1 (G / 2) N n z)
        (cmp (((diffs l).map Term.der).map Term.der) x - sign * incr2 (G / 2) N n x) x := fun x hx =>
      (cmp_hasDerivAt _ (ok_der _ hd) hx).sub ((hasDerivAt_incr1 hG' hN hM hx).const_mul _)
    refine convexOn_of_hasDerivWithinAt2_nonneg (convex_Ioi 0) (fun x hx => (hD x hx).continuousAt.continuousWithinAt)
      (f' := fun x => cmp ((diffs l).map Term.der) x - sign * incr1 (G / 2) N n x)
      (f'' := fun x => cmp (((diffs l).map Term.der).map Term.der) x - sign * incr2 (G / 2) N n x) ?_ ?_ ?_
    · intro x hx; rw [hi] at hx; exact (hD x hx).hasDerivWithinAt
    · intro x hx; rw [hi] at hx; exact (hD2 x hx).hasDerivWithinAt
    · intro x hx
      rw [hi] at hx
      simp only [certificate, Bool.and_eq_true, List.all_eq_true] at hc
      have h1 := Rat'.sum_nonneg _ (le_of_lt hx) hc.1 hc.2
      rw [List.map_append, List.sum_append, incrRat_val sign G hG hN hM hx] at h1
      have h2 : (((diffs l).map fun t => t.der.der.rat).map fun r => r.val x).sum =
          cmp (((diffs l).map Term.der).map Term.der) x := by
        rw [cmp, List.map_map, List.map_map, List.map_map]
        congr 1
        refine List.map_congr_left fun t _ => ?_
        simp only [Function.comp, Term.rat_val]
      rw [h2] at h1
      linarith
  · have h1 := (cmp_tendsto _ hd).sub ((incr_tendsto (g := (G : ℝ) / 2) (n := n) hN).const_mul (sign : ℝ))
    simpa using h1

/-- the error of the approximation -/
theorem err_bounds {G : ℤ} (hG : 0 ≤ G) {N : List ℤ} {n : ℕ} (hN : posit N = true) (hM : posit (sh N) = true) {S : ℝ → ℝ}
    {K c : ℝ} (hK : 0 < K) (hc : c ≠ 0) (hS : ∀ z : ℝ, 0 < z → S z = ev N z / (K * ∏ i ∈ Finset.range n, (z + i)))
    (hl : Tendsto S atTop (𝓝 c)) {up lo : List Term} (hu : up.all okTerm = true) (ho : lo.all okTerm = true)
    (hcu : certificate (-1) G N n up = true) (hco : certificate 1 G N n lo = true) {z : ℝ} (hz : 0 < z) :
    Real.log c - cmp lo z ≤ err (G / 2) S z ∧ err (G / 2) S z ≤ Real.log c + cmp up z := by
  have he := err_tendsto ((G : ℝ) / 2) hc hl hz
  constructor
  · have h1 := telescope (e := err (G / 2) S) (D := cmp lo) hz
      (fun w hw => by
        rw [err_succ hK hN hS hw]
        have := incr_le hG hN hM ho hco hw
        push_cast at this
        linarith) he (cmp_tendsto _ ho)
    linarith
  · have h1 := telescope (e := fun w => -err (G / 2) S w) (D := cmp up) hz
      (fun w hw => by
        have h2 := err_succ (g := (G : ℝ) / 2) hK hN hS hw
        have := incr_le hG hN hM hu hcu hw
        push_cast at this
        linarith) he.neg (cmp_tendsto _ hu)
    linarith

/-- the comparison functions are largest at zero -/
theorem cmp_le_zero {l : List Term} (hl : l.all okTerm = true) (ha : l.all (fun t => decide (0 ≤ t.a)) = true) {z : ℝ}
    (hz : 0 ≤ z) : cmp l z ≤ cmp l 0 := by
  induction l with
  | nil => simp [cmp]
  | cons t l ih =>
    simp only [List.all_cons, Bool.and_eq_true, decide_eq_true_eq] at hl ha
    have h1 := ih hl.2 ha.2
    simp only [okTerm, Bool.and_eq_true, decide_eq_true_eq] at hl
    have hq : (0 : ℝ) < t.q := by exact_mod_cast hl.1.1.1
    have hd : (0 : ℝ) < t.d := by exact_mod_cast hl.1.1.2
    have h0 : (0 : ℝ) ≤ t.a := by exact_mod_cast ha.1
    simp only [cmp, List.map_cons, List.sum_cons] at h1 ⊢
    refine add_le_add ?_ h1
    simp only [Term.val]
    refine mul_le_mul_of_nonneg_left ?_ (by positivity)
    refine inv_anti₀ (by positivity) (pow_le_pow_left₀ (by positivity) (by linarith) _)

end Verif.Lanczos
