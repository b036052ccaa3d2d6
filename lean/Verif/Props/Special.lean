import Verif.Model.Special
import Verif.Model.RiceWeibull
import Verif.Model.Joint
import Verif.Lemmas.Lanczos
import Verif.Props.RiceWeibull
import Mathlib.Analysis.Real.Pi.Bounds

/-!
# C111: the Gamma function and its logarithm are computed accurately for every positive argument
-/

namespace Verif.Props
open Verif Verif.Special Verif.Lanczos Verif.Poly Filter Topology

/-! ## the series as quotients of polynomials -/

/-- numerator of the series of `gamma`, times 10 ^ 23 -/
private def gN : List ℤ :=
  [340966265533430090400000000000, 416238789122556677013343057920, 222288041949364154006002548704,
    67828970150233406162491609224, 12934725852873055338469311460, 1578488045669745218679155700, 120383420138864624494412956,
    5245833333334355445450276, 99999999999980993000000]

/-- numerator of the series of `gammaln`, times 10 ^ 18 -/
private def lN : List ℤ :=
  [9141611007536575200000, 12004319135963288586498, 6566207591518191899269, 1914955976674752939984, 314042534816107043439,
    27458333327020151226, 1000000000190015000]

private theorem gamma_quot (z : ℝ) (hz : 0 < z) :
    gammaSeries (z - 1) = ev gN z / (10 ^ 23 * ∏ i ∈ Finset.range 8, (z + i)) := by
  have h : ∀ k : ℝ, z - 1 + k + 1 = z + k := fun k => by ring
  simp only [gammaSeries, gammaCoef, List.zipIdx_cons, List.zipIdx_nil, List.foldl_cons, List.foldl_nil, gN, ev_cons, ev_nil, h,
    Finset.prod_range_succ, Finset.prod_range_zero]
  push_cast
  norm_num only [zero_add, add_zero]
  field_simp
  ring

private theorem ln_quot (z : ℝ) (hz : 0 < z) :
    (lnSeries (z - 1)).2 = ev lN z / (10 ^ 18 * ∏ i ∈ Finset.range 6, (z + i)) := by
  simp only [lnSeries, lnCoef, List.foldl_cons, List.foldl_nil, lN, ev_cons, ev_nil, Finset.prod_range_succ,
    Finset.prod_range_zero, sub_add_cancel]
  push_cast
  norm_num only [zero_add, add_zero, add_assoc]
  field_simp
  ring

private theorem inv_shift (c k : ℝ) : Tendsto (fun z : ℝ => c / (z + k)) atTop (𝓝 0) :=
  tendsto_const_nhds.div_atTop (tendsto_atTop_add_const_right _ _ tendsto_id)

private theorem add_shift {f : ℝ → ℝ} {l : ℝ} (h : Tendsto f atTop (𝓝 l)) (c k : ℝ) :
    Tendsto (fun z => f z + c / (z + k)) atTop (𝓝 l) := by
  simpa using h.add (inv_shift c k)

private theorem gamma_lim : Tendsto (fun z => gammaSeries (z - 1)) atTop (𝓝 0.99999999999980993) := by
  have h : ∀ z k : ℝ, z - 1 + k + 1 = z + k := fun z k => by ring
  simp only [gammaSeries, gammaCoef, List.zipIdx_cons, List.zipIdx_nil, List.foldl_cons, List.foldl_nil, h]
  iterate 8 refine add_shift ?_ _ _
  exact tendsto_const_nhds

private theorem ln_lim : Tendsto (fun z => (lnSeries (z - 1)).2) atTop (𝓝 1.000000000190015) := by
  have h : ∀ z : ℝ, z - 1 + 1 = z + 0 := fun z => by ring
  simp only [lnSeries, lnCoef, List.foldl_cons, List.foldl_nil, h]
  simp only [add_assoc (_ : ℝ) (0 : ℝ), add_assoc (_ : ℝ) (0 + 1 : ℝ), add_assoc (_ : ℝ) (0 + 1 + 1 : ℝ),
    add_assoc (_ : ℝ) (0 + 1 + 1 + 1 : ℝ), add_assoc (_ : ℝ) (0 + 1 + 1 + 1 + 1 : ℝ)]
  iterate 6 refine add_shift ?_ _ _
  exact tendsto_const_nhds

/-! ## comparison functions -/

private def gUp : List Term := [⟨202, 10 ^ 13, 40, 1⟩, ⟨1024, 10 ^ 14, 4, 4⟩]
private def gLo : List Term := [⟨1017, 10 ^ 13, 20, 2⟩]
private def lUp : List Term := [⟨3143, 10 ^ 11, 10, 2⟩]
private def lLo : List Term := [⟨1154, 10 ^ 11, 20, 1⟩, ⟨2 * 4 ^ 6, 10 ^ 10, 4, 6⟩]

private theorem gUp_ok : certificate (-1) 13 gN 8 gUp = true := by decide +kernel
private theorem gLo_ok : certificate 1 13 gN 8 gLo = true := by decide +kernel
private theorem lUp_ok : certificate (-1) 9 lN 6 lUp = true := by decide +kernel
private theorem lLo_ok : certificate 1 9 lN 6 lLo = true := by decide +kernel

private theorem gamma_err {z : ℝ} (hz : 0 < z) :
    -4.5e-13 ≤ err (13 / 2) (fun w => gammaSeries (w - 1)) z ∧ err (13 / 2) (fun w => gammaSeries (w - 1)) z ≤ 4e-13 := by
  obtain ⟨h1, h2⟩ := err_bounds (G := 13) (by norm_num) (N := gN) (n := 8) (by decide) (by decide +kernel)
    (by norm_num : (0 : ℝ) < 10 ^ 23) (by norm_num : (0.99999999999980993 : ℝ) ≠ 0) gamma_quot gamma_lim
    (up := gUp) (lo := gLo) (by decide) (by decide) gUp_ok gLo_ok hz
  push_cast at h1 h2
  have h3 := cmp_le_zero (l := gUp) (by decide) (by decide) hz.le
  have h4 := cmp_le_zero (l := gLo) (by decide) (by decide) hz.le
  have h5 : Lanczos.cmp gUp 0 ≤ 5.5e-13 := by simp [Lanczos.cmp, gUp, Term.val]; norm_num
  have h6 : Lanczos.cmp gLo 0 ≤ 2.55e-13 := by simp [Lanczos.cmp, gLo, Term.val]; norm_num
  have h7 := Real.one_sub_inv_le_log_of_pos (by norm_num : (0 : ℝ) < 0.99999999999980993)
  have h8 := Real.log_le_sub_one_of_pos (by norm_num : (0 : ℝ) < 0.99999999999980993)
  have h9 : (-1.95e-13 : ℝ) ≤ 1 - (0.99999999999980993 : ℝ)⁻¹ := by norm_num
  constructor
  · linarith
  · norm_num at h8 ⊢
    linarith

private theorem ln_err {z : ℝ} (hz : 0 < z) :
    -5.9e-10 ≤ err (9 / 2) (fun w => (lnSeries (w - 1)).2) z ∧ err (9 / 2) (fun w => (lnSeries (w - 1)).2) z ≤ 5.1e-10 := by
  obtain ⟨h1, h2⟩ := err_bounds (G := 9) (by norm_num) (N := lN) (n := 6) (by decide) (by decide +kernel)
    (by norm_num : (0 : ℝ) < 10 ^ 18) (by norm_num : (1.000000000190015 : ℝ) ≠ 0) ln_quot ln_lim
    (up := lUp) (lo := lLo) (by decide) (by decide) lUp_ok lLo_ok hz
  push_cast at h1 h2
  have h3 := cmp_le_zero (l := lUp) (by decide) (by decide) hz.le
  have h4 := cmp_le_zero (l := lLo) (by decide) (by decide) hz.le
  have h5 : Lanczos.cmp lUp 0 ≤ 3.15e-10 := by simp [Lanczos.cmp, lUp, Term.val]; norm_num
  have h6 : Lanczos.cmp lLo 0 ≤ 7.78e-10 := by simp [Lanczos.cmp, lLo, Term.val]; norm_num
  have h7 := Real.one_sub_inv_le_log_of_pos (by norm_num : (0 : ℝ) < 1.000000000190015)
  have h8 := Real.log_le_sub_one_of_pos (by norm_num : (0 : ℝ) < 1.000000000190015)
  have h9 : (1.9e-10 : ℝ) ≤ 1 - (1.000000000190015 : ℝ)⁻¹ := by norm_num
  constructor
  · linarith
  · norm_num at h8 ⊢
    linarith

private theorem series_pos {N : List ℤ} (hN : posit N = true) {n : ℕ} {K z : ℝ} (hK : 0 < K) (hz : 0 < z) :
    0 < ev N z / (K * ∏ i ∈ Finset.range n, (z + i)) :=
  div_pos (ev_pos hN hz.le) (mul_pos hK (Finset.prod_pos fun i _ => by positivity))

/-- `gamma` is positive and its logarithm is the one of Γ up to the error -/
private theorem gamma_eq {z : ℝ} (hz : 0 < z) :
    gamma z = Real.Gamma z * Real.exp (err (13 / 2) (fun w => gammaSeries (w - 1)) z) := by
  have hS : 0 < gammaSeries (z - 1) := by rw [gamma_quot z hz]; exact series_pos (by decide) (by norm_num) hz
  have hG := Real.Gamma_pos_of_pos hz
  have ht : 0 < z + 13 / 2 := by positivity
  have e1 : z - 1 + 7.5 = z + 13 / 2 := by norm_num; ring
  have e2 : z - 1 + 0.5 = z - 1 / 2 := by norm_num; ring
  have hpi : 0 < Real.sqrt (2 * Real.pi) := by positivity
  simp only [gamma, e1, e2]
  rw [Real.rpow_def_of_pos ht]
  have h1 : err (13 / 2) (fun w => gammaSeries (w - 1)) z = Real.log (Real.sqrt (2 * Real.pi)) +
      (Real.log (z + 13 / 2) * (z - 1 / 2)) + -(z + 13 / 2) + Real.log (gammaSeries (z - 1)) - Real.log (Real.Gamma z) := by
    simp only [err, lam]; ring
  rw [h1, Real.exp_sub, Real.exp_add, Real.exp_add, Real.exp_add, Real.exp_log hpi, Real.exp_log hS, Real.exp_log hG]
  field_simp

private theorem exp_near {t c d : ℝ} (h : |t| ≤ c) (hc : c ≤ 1) (hd : c + c ^ 2 ≤ d) : |Real.exp t - 1| ≤ d := by
  have h1 := Real.abs_exp_sub_one_sub_id_le (h.trans hc)
  have h2 : t ^ 2 ≤ c ^ 2 := by rw [← sq_abs]; exact pow_le_pow_left₀ (abs_nonneg t) h 2
  have h3 : Real.exp t - 1 = (Real.exp t - 1 - t) + t := by ring
  rw [h3]
  exact (abs_add_le _ _).trans (by linarith)

/-- C111: `gamma` has a relative error below 5e-13 at every positive argument -/
theorem gamma_accuracy {z : ℝ} (hz : 0 < z) : |gamma z - Real.Gamma z| ≤ 5e-13 * Real.Gamma z := by
  have hG := Real.Gamma_pos_of_pos hz
  obtain ⟨h1, h2⟩ := gamma_err hz
  have h3 := exp_near (t := err (13 / 2) (fun w => gammaSeries (w - 1)) z) (c := 4.5e-13) (d := 5e-13)
    (abs_le.2 ⟨by linarith, by norm_num at h2 ⊢; linarith⟩) (by norm_num) (by norm_num)
  have h4 : gamma z - Real.Gamma z = (Real.exp (err (13 / 2) (fun w => gammaSeries (w - 1)) z) - 1) * Real.Gamma z := by
    rw [gamma_eq hz]; ring
  rw [h4, abs_mul, abs_of_pos hG]
  exact mul_le_mul_of_nonneg_right h3 hG.le

/-- the constant of `gammaln` is the square root of 2π -/
private theorem stp_log : |Real.log 2.5066282746310005 - Real.log (Real.sqrt (2 * Real.pi))| ≤ 1e-15 := by
  have h1 := Real.pi_gt_d20
  have h2 := Real.pi_lt_d20
  rw [Real.log_sqrt (by positivity)]
  have h3 : Real.log 2.5066282746310005 = Real.log (2.5066282746310005 ^ 2) / 2 := by rw [Real.log_pow]; push_cast; ring
  rw [h3, ← sub_div, ← Real.log_div (by norm_num) (by positivity)]
  have h4 : (2.5066282746310005 : ℝ) ^ 2 / (2 * Real.pi) ≤ 1 + 1e-15 := by
    rw [div_le_iff₀ (by positivity)]; norm_num at h1 ⊢; linarith
  have h5 : 1 - 1e-15 ≤ (2.5066282746310005 : ℝ) ^ 2 / (2 * Real.pi) := by
    rw [le_div_iff₀ (by positivity)]; norm_num at h2 ⊢; linarith
  have h6 := Real.log_le_log (by norm_num) h5
  have h7 := Real.log_le_sub_one_of_pos (lt_of_lt_of_le (by norm_num) h5)
  have h8 := Real.one_sub_inv_le_log_of_pos (by norm_num : (0 : ℝ) < 1 - 1e-15)
  rw [abs_le]
  norm_num at h8 h4 ⊢
  constructor <;> linarith

/-- C111: `gammaln` is within 6e-10 of the logarithm of Γ at every positive argument -/
theorem gammaln_accuracy {x : ℝ} (hx : 0 < x) : |gammaln x - Real.log (Real.Gamma x)| ≤ 6e-10 := by
  have hS : 0 < (lnSeries (x - 1)).2 := by rw [ln_quot x hx]; exact series_pos (by decide) (by norm_num) hx
  obtain ⟨h1, h2⟩ := ln_err hx
  have h3 := abs_le.1 stp_log
  have e1 : x - 1 + 5.5 = x + 9 / 2 := by norm_num; ring
  have e2 : x - 1 + 0.5 = x - 1 / 2 := by norm_num; ring
  have h4 : gammaln x - Real.log (Real.Gamma x) = err (9 / 2) (fun w => (lnSeries (w - 1)).2) x +
      (Real.log 2.5066282746310005 - Real.log (Real.sqrt (2 * Real.pi))) := by
    simp only [gammaln, err, lam, e1, e2]
    rw [Real.log_mul (by norm_num) hS.ne']
    ring
  rw [h4, abs_le]
  norm_num at h1 h2 h3 ⊢
  constructor <;> linarith

/-! ## what depends on them -/

/-- C111: the Weibull law returned by the moment matching has the requested mean up to a relative error below 6e-13, for every
coefficient of variation up to 2.7 -/
theorem weibull_mean_accuracy {mean sigma : ℝ} (hm : 0 < mean) (hs : 0 < sigma) (hz : sigma ≤ 2.7 * mean) :
    ∃ alpha beta, RiceWeibull.garcia gamma mean sigma = .ok (alpha, beta) ∧ 0 < alpha ∧ 0 < beta ∧
      |Spec.mean (Spec.weibullLaw alpha beta) - mean| ≤ 6e-13 * mean := by
  set z := sigma / mean with hzdef
  have hz0 : 0 < z := by positivity
  have hz1 : z ≤ 2.7 := by rw [hzdef, div_le_iff₀ hm]; linarith
  have hd := mul_pos hz0 (garcia_den_pos hz0 hz1)
  set den := z * (1 + (1 - z) ^ 2 * RiceWeibull.garciaPoly z) with hden
  have ha : 0 < 1 / den := by positivity
  have hp : 0 < 1 + 1 / (1 / den) := by positivity
  have hG := Real.Gamma_pos_of_pos hp
  have hacc := abs_le.1 (gamma_accuracy hp)
  have hg : 0 < gamma (1 + 1 / (1 / den)) := by linarith [hacc.1]
  have hgm : 0 < gamma (1 + 1 / (1 / den)) / mean := by positivity
  have hb : 0 < 1 / (gamma (1 + 1 / (1 / den)) / mean) := by positivity
  refine ⟨1 / den, 1 / (gamma (1 + 1 / (1 / den)) / mean), ?_, ha, hb, ?_⟩
  · unfold RiceWeibull.garcia
    rw [if_neg hm.ne']
    dsimp only
    rw [← hzdef, ← hden, if_neg hd.ne', if_neg hgm.ne']
  · rw [Spec.weibull_mean ha hb]
    generalize Real.Gamma (1 + 1 / (1 / den)) = G at *
    generalize gamma (1 + 1 / (1 / den)) = H at *
    have e : 1 / (H / mean) * G - mean = (G - H) / H * mean := by field_simp
    rw [e, abs_mul, abs_of_pos hm]
    refine mul_le_mul_of_nonneg_right ?_ hm.le
    rw [abs_div, abs_of_pos hg, div_le_iff₀ hg, abs_le]
    obtain ⟨h1, h2⟩ := hacc
    norm_num at h1 h2 ⊢
    constructor <;> linarith

/-- C111: the density of the Dirichlet drawn on the triangle is the exact one up to a relative error below 3e-9 -/
theorem simplex_accuracy {alpha : Fin 3 → ℝ} (ha : ∀ i, 0 < alpha i) (x : Fin 3 → ℝ) :
    |Joint.simplexPdf gammaln alpha x - Joint.simplexPdf (fun y => Real.log (Real.Gamma y)) alpha x| ≤
      3e-9 * |Joint.simplexPdf (fun y => Real.log (Real.Gamma y)) alpha x| := by
  have h0 : 0 < ∑ i, alpha i := Finset.sum_pos (fun i _ => ha i) ⟨0, Finset.mem_univ 0⟩
  set E := Joint.simplexCoef (fun y => Real.log (Real.Gamma y)) alpha with hE
  have hE0 : 0 < E := Real.exp_pos _
  have h1 := abs_le.1 (gammaln_accuracy h0)
  have h2 : ∀ i, -6e-10 ≤ gammaln (alpha i) - Real.log (Real.Gamma (alpha i)) ∧
    gammaln (alpha i) - Real.log (Real.Gamma (alpha i)) ≤ 6e-10 := fun i => abs_le.1 (gammaln_accuracy (ha i))
  have h3 : Joint.simplexCoef gammaln alpha = E * Real.exp (gammaln (∑ i, alpha i) - Real.log (Real.Gamma (∑ i, alpha i)) -
      ∑ i, (gammaln (alpha i) - Real.log (Real.Gamma (alpha i)))) := by
    rw [hE, Joint.simplexCoef, Joint.simplexCoef, ← Real.exp_add]
    congr 1
    rw [Finset.sum_sub_distrib]
    ring
  have h4 := exp_near (t := gammaln (∑ i, alpha i) - Real.log (Real.Gamma (∑ i, alpha i)) -
      ∑ i, (gammaln (alpha i) - Real.log (Real.Gamma (alpha i)))) (c := 2.4e-9) (d := 3e-9) (by
    have e : ∑ i, (gammaln (alpha i) - Real.log (Real.Gamma (alpha i))) = (gammaln (alpha 0) - Real.log (Real.Gamma (alpha 0))) +
      (gammaln (alpha 1) - Real.log (Real.Gamma (alpha 1))) + (gammaln (alpha 2) - Real.log (Real.Gamma (alpha 2))) :=
      Fin.sum_univ_three _
    rw [abs_le, e]
    obtain ⟨h1, h1'⟩ := h1
    obtain ⟨a, a'⟩ := h2 0
    obtain ⟨b, b'⟩ := h2 1
    obtain ⟨c, c'⟩ := h2 2
    constructor <;> linarith) (by norm_num) (by norm_num)
  have h5 : Joint.simplexPdf gammaln alpha x - Joint.simplexPdf (fun y => Real.log (Real.Gamma y)) alpha x =
      (Real.exp (gammaln (∑ i, alpha i) - Real.log (Real.Gamma (∑ i, alpha i)) -
      ∑ i, (gammaln (alpha i) - Real.log (Real.Gamma (alpha i)))) - 1) *
        Joint.simplexPdf (fun y => Real.log (Real.Gamma y)) alpha x := by
    simp only [Joint.simplexPdf, h3, ← hE]
    ring
  rw [h5, abs_mul]
  exact mul_le_mul_of_nonneg_right h4 (abs_nonneg _)

/-! ## Witnesses -/

/-- Γ(5) = 24 -/
example : |gamma 5 - 24| ≤ 1.2e-11 := by
  have h : Real.Gamma 5 = 24 := by
    have h1 := Real.Gamma_nat_eq_factorial 4
    rw [show ((4 : ℕ) : ℝ) + 1 = 5 by norm_num] at h1
    rw [h1]; norm_num [Nat.factorial]
  have := gamma_accuracy (z := 5) (by norm_num)
  rw [h] at this
  norm_num at this ⊢
  exact this

/-- Γ(1/2) is the square root of π -/
example : |gammaln (1 / 2) - Real.log (Real.sqrt Real.pi)| ≤ 6e-10 := by
  have := gammaln_accuracy (x := 1 / 2) (by norm_num)
  rwa [Real.Gamma_one_half_eq] at this

/-- mean 10, deviation 4 -/
example : ∃ alpha beta, RiceWeibull.garcia gamma 10 4 = .ok (alpha, beta) ∧
    |Spec.mean (Spec.weibullLaw alpha beta) - 10| ≤ 6e-12 := by
  obtain ⟨a, b, h, -, -, h1⟩ := weibull_mean_accuracy (mean := 10) (sigma := 4) (by norm_num) (by norm_num) (by norm_num)
  exact ⟨a, b, h, h1.trans (by norm_num)⟩

/-- Dirichlet(2, 3, 4) -/
example (x : Fin 3 → ℝ) := simplex_accuracy (alpha := ![2, 3, 4]) (by intro i; fin_cases i <;> simp) x

end Verif.Props
