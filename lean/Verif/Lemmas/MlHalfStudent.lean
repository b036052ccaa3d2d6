import Verif.Spec.LawMore
import Verif.Spec.MlExist
import Verif.Lemmas.MlReduce
import Mathlib.Analysis.SpecialFunctions.Gamma.BohrMollerup
import Mathlib.Analysis.SpecialFunctions.Gamma.Deriv
import Mathlib.Analysis.Real.Pi.Bounds
import Mathlib.Tactic

/-!
# The half Student t density: bounds
-/

namespace Verif.MlHalf
open Verif.Spec Filter Topology Set

/-! ### the constant factor -/

theorem gamma_half_le {x : ℝ} (hx : 0 < x) : Real.Gamma (x + 1 / 2) ≤ √x * Real.Gamma x := by
  have h1 := Real.Gamma_mul_add_mul_le_rpow_Gamma_mul_rpow_Gamma (s := x) (t := x + 1) (a := 1 / 2) (b := 1 / 2) hx
    (by linarith) (by norm_num) (by norm_num) (by norm_num)
  have hg := Real.Gamma_pos_of_pos hx
  rw [Real.Gamma_add_one hx.ne', Real.mul_rpow hx.le hg.le, ← Real.sqrt_eq_rpow, ← Real.sqrt_eq_rpow] at h1
  have h2 : √(Real.Gamma x) * (√x * √(Real.Gamma x)) = √x * Real.Gamma x := by
    rw [mul_left_comm, Real.mul_self_sqrt hg.le]
  rw [h2] at h1
  convert h1 using 2
  ring

theorem gamma_half_ge {x : ℝ} (hx : 0 < x) : x * Real.Gamma x ≤ √(x + 1 / 2) * Real.Gamma (x + 1 / 2) := by
  have := gamma_half_le (show 0 < x + 1 / 2 by linarith)
  rwa [show x + 1 / 2 + 1 / 2 = x + 1 by ring, Real.Gamma_add_one hx.ne'] at this

/-- the constant factor of the density times the scale -/
noncomputable def top (n : ℝ) : ℝ := 2 * Real.Gamma ((n + 1) / 2) / (Real.Gamma (n / 2) * √(n * Real.pi))

/-- the one of the half normal -/
noncomputable def topN : ℝ := √2 / √Real.pi

theorem topN_pos : 0 < topN := div_pos (Real.sqrt_pos.2 two_pos) (Real.sqrt_pos.2 Real.pi_pos)

theorem topN_lt : topN < 1 := by
  unfold topN
  rw [div_lt_one (Real.sqrt_pos.2 Real.pi_pos)]
  exact Real.sqrt_lt_sqrt (by norm_num) (by linarith [Real.pi_gt_three])

theorem top_pos {n : ℝ} (hn : 0 < n) : 0 < top n := by
  have := Real.Gamma_pos_of_pos (show 0 < (n + 1) / 2 by positivity)
  have := Real.Gamma_pos_of_pos (show 0 < n / 2 by positivity)
  have := Real.sqrt_pos.2 (show 0 < n * Real.pi by positivity)
  unfold top
  positivity

theorem top_eq {n : ℝ} (hn : 0 < n) : top n = topN * (Real.Gamma (n / 2 + 1 / 2) / (√(n / 2) * Real.Gamma (n / 2))) := by
  have h1 : √(n * Real.pi) = √2 * √(n / 2) * √Real.pi := by
    rw [← Real.sqrt_mul (by norm_num), ← Real.sqrt_mul (by positivity)]; congr 1; ring
  have := Real.Gamma_pos_of_pos (show 0 < n / 2 by positivity)
  have := Real.sqrt_pos.2 (show 0 < n / 2 by positivity)
  have := Real.sqrt_pos.2 Real.pi_pos
  have h2 := Real.sqrt_pos.2 (two_pos (α := ℝ))
  have h3 : √(2 : ℝ) * √2 = 2 := Real.mul_self_sqrt (by norm_num)
  unfold top topN
  rw [h1, show (n + 1) / 2 = n / 2 + 1 / 2 by ring]
  generalize Real.Gamma (n / 2 + 1 / 2) = G at *
  rw [div_mul_div_comm, div_eq_div_iff (by positivity) (by positivity)]
  linear_combination (-G * √(n / 2) * Real.Gamma (n / 2) * √Real.pi) * h3

theorem top_le {n : ℝ} (hn : 0 < n) : top n ≤ topN := by
  have h0 : 0 < n / 2 := by positivity
  rw [top_eq hn]
  refine mul_le_of_le_one_right topN_pos.le ?_
  rw [div_le_one (mul_pos (Real.sqrt_pos.2 h0) (Real.Gamma_pos_of_pos h0))]
  exact gamma_half_le h0

theorem top_ge {n : ℝ} (hn : 0 < n) : topN * (√(n / 2) / √(n / 2 + 1 / 2)) ≤ top n := by
  have h0 : 0 < n / 2 := by positivity
  rw [top_eq hn]
  refine mul_le_mul_of_nonneg_left ?_ topN_pos.le
  have a := Real.sqrt_pos.2 h0
  have b := Real.sqrt_pos.2 (show 0 < n / 2 + 1 / 2 by positivity)
  have g := Real.Gamma_pos_of_pos h0
  rw [div_le_div_iff₀ b (mul_pos a g)]
  calc √(n / 2) * (√(n / 2) * Real.Gamma (n / 2)) = n / 2 * Real.Gamma (n / 2) := by
        rw [← mul_assoc, Real.mul_self_sqrt h0.le]
    _ ≤ _ := by rw [mul_comm (Real.Gamma _)]; exact gamma_half_ge h0

theorem top_small {n : ℝ} (hn : 0 < n) (h1 : n ≤ 1) : top n ≤ 2 * √n := by
  have h0 : 0 < n / 2 := by positivity
  have a := Real.sqrt_pos.2 h0
  have g := Real.Gamma_pos_of_pos h0
  have g2 := Real.Gamma_pos_of_pos (show 0 < n / 2 + 1 / 2 by positivity)
  have h2 := gamma_half_ge (show 0 < n / 2 + 1 / 2 by positivity)
  rw [show n / 2 + 1 / 2 + 1 / 2 = n / 2 + 1 by ring, Real.Gamma_add_one h0.ne'] at h2
  have h3 : √(n / 2 + 1) ≤ 5 / 4 := by
    rw [Real.sqrt_le_left (by norm_num)]; linarith
  have h4 : 1 / 2 * Real.Gamma (n / 2 + 1 / 2) ≤ 5 / 4 * (n / 2 * Real.Gamma (n / 2)) :=
    calc 1 / 2 * Real.Gamma (n / 2 + 1 / 2) ≤ (n / 2 + 1 / 2) * Real.Gamma (n / 2 + 1 / 2) :=
          mul_le_mul_of_nonneg_right (by linarith) g2.le
      _ ≤ _ := h2
      _ ≤ _ := mul_le_mul_of_nonneg_right h3 (by positivity)
  rw [top_eq hn]
  have h5 : Real.Gamma (n / 2 + 1 / 2) / (√(n / 2) * Real.Gamma (n / 2)) ≤ 5 / 2 * √(n / 2) := by
    rw [div_le_iff₀ (mul_pos a g)]
    have : √(n / 2) * √(n / 2) = n / 2 := Real.mul_self_sqrt h0.le
    calc Real.Gamma (n / 2 + 1 / 2) ≤ 5 / 2 * (n / 2 * Real.Gamma (n / 2)) := by linarith
      _ = _ := by linear_combination (-(5 / 2) * Real.Gamma (n / 2)) * this
  have h6 : √(n / 2) = √n / √2 := Real.sqrt_div hn.le 2
  have h7 : 5 / 2 * (√n / √2) ≤ 2 * √n := by
    have : (5 : ℝ) / 4 ≤ √2 := Real.le_sqrt_of_sq_le (by norm_num)
    have hs := Real.sqrt_pos.2 hn
    rw [← mul_div_assoc, div_le_iff₀ (by positivity)]
    nlinarith
  calc _ ≤ 1 * (5 / 2 * √(n / 2)) := mul_le_mul topN_lt.le h5 (by positivity) (by norm_num)
    _ ≤ _ := by rw [one_mul, h6]; exact h7

/-! ### the density -/

/-- the shape of `x` times the density, in `s = x² / σ²` -/
noncomputable def bell (n s : ℝ) : ℝ := √s * (1 + s / n) ^ (-((n + 1) / 2))

theorem pdf_eq {n sigma x : ℝ} (hn : 0 < n) (hs : 0 < sigma) (hx : 0 < x) :
    x * halfStudentPdf n sigma x = top n * bell n (x ^ 2 / sigma ^ 2) := by
  unfold halfStudentPdf top bell
  rw [if_neg (not_lt.2 hx.le), Real.sqrt_mul' _ (sq_nonneg _), Real.sqrt_sq hs.le, Real.sqrt_div (sq_nonneg _),
    Real.sqrt_sq hx.le, Real.sqrt_sq hs.le, show 1 + 1 / n * (x ^ 2 / sigma ^ 2) = 1 + x ^ 2 / sigma ^ 2 / n by ring]
  have := Real.Gamma_pos_of_pos (show 0 < n / 2 by positivity)
  have := Real.sqrt_pos.2 (show 0 < n * Real.pi by positivity)
  generalize (1 + x ^ 2 / sigma ^ 2 / n) ^ (-((n + 1) / 2)) = W
  generalize Real.Gamma ((n + 1) / 2) = G
  field_simp

theorem pdf_pos {n sigma x : ℝ} (hn : 0 < n) (hs : 0 < sigma) (hx : 0 < x) : 0 < halfStudentPdf n sigma x := by
  have h : 0 < x * halfStudentPdf n sigma x := by
    rw [pdf_eq hn hs hx]
    refine mul_pos (top_pos hn) (mul_pos (Real.sqrt_pos.2 (by positivity)) (Real.rpow_pos_of_pos (by positivity) _))
  exact pos_of_mul_pos_right h hx.le |> fun h => h

theorem bell_eq {n s : ℝ} (hn : 0 < n) (hs : 0 < s) :
    bell n s = Real.exp (1 / 2 * Real.log s - (n + 1) / 2 * Real.log (1 + s / n)) := by
  unfold bell
  rw [Real.exp_sub, ← Real.log_rpow hs, Real.exp_log (Real.rpow_pos_of_pos hs _), Real.sqrt_eq_rpow,
    Real.rpow_neg (by positivity), ← Real.log_rpow (by positivity), Real.exp_log (Real.rpow_pos_of_pos (by positivity) _)]
  rfl

/-- the bell is below that of the half normal at its best -/
theorem bell_lt {n s : ℝ} (hn : 0 < n) (hs : 0 < s) : bell n s < Real.exp (-(1 / 2)) := by
  rw [bell_eq hn hs, Real.exp_lt_exp]
  have h1 : 1 + s / n = (1 + 1 / n) * ((n + s) / (n + 1)) := by field_simp
  have h2 : Real.log s ≤ (n + 1) * Real.log ((n + s) / (n + 1)) := by
    have hw := Real.geom_mean_le_arith_mean2_weighted (w₁ := n / (n + 1)) (w₂ := 1 / (n + 1)) (p₁ := 1) (p₂ := s)
      (by positivity) (by positivity) zero_le_one hs.le (by field_simp)
    rw [Real.one_rpow, one_mul, mul_one] at hw
    have := Real.log_le_log (Real.rpow_pos_of_pos hs _) hw
    rw [Real.log_rpow hs, show n / (n + 1) + 1 / (n + 1) * s = (n + s) / (n + 1) by field_simp] at this
    have h := mul_le_mul_of_nonneg_left this (show 0 ≤ n + 1 by positivity)
    calc Real.log s = (n + 1) * (1 / (n + 1) * Real.log s) := by field_simp
      _ ≤ _ := h
  have h3 : 1 < (n + 1) * Real.log (1 + 1 / n) := by
    have : -Real.log (1 + 1 / n) < (1 + 1 / n)⁻¹ - 1 := by
      rw [← Real.log_inv]
      refine Real.log_lt_sub_one_of_pos (by positivity) ?_
      rw [ne_eq, inv_eq_one]
      have : 0 < 1 / n := by positivity
      linarith
    rw [show (1 + 1 / n)⁻¹ - 1 = -(1 / (n + 1)) by field_simp; ring] at this
    have h := mul_lt_mul_of_pos_left (neg_lt_neg_iff.1 this) (show 0 < n + 1 by positivity)
    rwa [mul_one_div_cancel (by positivity)] at h
  rw [h1, Real.log_mul (by positivity) (by positivity)]
  linarith

theorem bell_pos {n s : ℝ} (hn : 0 < n) (hs : 0 < s) : 0 < bell n s := by
  rw [bell_eq hn hs]; exact Real.exp_pos _

theorem weight_le_one {n s : ℝ} (hn : 0 < n) (hs : 0 < s) : top n * bell n s ≤ 1 := by
  have h1 := (top_le hn).trans topN_lt.le
  have h2 : bell n s ≤ 1 := (bell_lt hn hs).le.trans (Real.exp_le_one_iff.2 (by norm_num))
  have := mul_le_mul h1 h2 (bell_pos hn hs).le zero_le_one
  linarith

theorem bell_le_sqrt {n s : ℝ} (hn : 0 < n) (hs : 0 < s) : bell n s ≤ √s := by
  unfold bell
  refine mul_le_of_le_one_right (Real.sqrt_nonneg _) (Real.rpow_le_one_of_one_le_of_nonpos ?_ ?_)
  · have : 0 < s / n := by positivity
    linarith
  · linarith

theorem bell_le_n {n s : ℝ} (hn : 0 < n) (hs : 0 < s) : bell n s ≤ √n := by
  unfold bell
  have h1 : (1 : ℝ) ≤ 1 + s / n := by have : 0 < s / n := by positivity
                                      linarith
  have h2 : (1 + s / n) ^ (-((n + 1) / 2)) ≤ (1 + s / n) ^ (-(1 / 2) : ℝ) :=
    Real.rpow_le_rpow_of_exponent_le h1 (by linarith)
  refine (mul_le_mul_of_nonneg_left h2 (Real.sqrt_nonneg _)).trans ?_
  rw [Real.rpow_neg (by linarith), ← Real.sqrt_eq_rpow, ← div_eq_mul_inv, div_le_iff₀ (Real.sqrt_pos.2 (by linarith)),
    ← Real.sqrt_mul hn.le]
  refine Real.sqrt_le_sqrt ?_
  rw [mul_add, mul_div_cancel₀ _ hn.ne']
  linarith

/-- large `s`, moderate `n` -/
theorem bell_le_mid {n n0 s : ℝ} (h0 : 0 < n0) (hn : n0 ≤ n) (h2 : n ≤ 2) (hs : 0 < s) :
    bell n s ≤ 2 * (1 + s / 2) ^ (-(n0 / 2)) := by
  have hn0 : 0 < n := h0.trans_le hn
  have hb : (1 : ℝ) ≤ 1 + s / 2 := by linarith
  have h1 : (1 + s / n) ^ (-((n + 1) / 2)) ≤ (1 + s / 2) ^ (-((n0 + 1) / 2)) :=
    calc (1 + s / n) ^ (-((n + 1) / 2)) ≤ (1 + s / 2) ^ (-((n + 1) / 2)) :=
          Real.rpow_le_rpow_of_nonpos (by linarith) (by
            have := div_le_div_of_nonneg_left hs.le hn0 h2
            linarith) (by linarith)
      _ ≤ _ := Real.rpow_le_rpow_of_exponent_le hb (by linarith)
  unfold bell
  refine (mul_le_mul_of_nonneg_left h1 (Real.sqrt_nonneg _)).trans ?_
  rw [show -((n0 + 1) / 2) = -(1 / 2) + -(n0 / 2) by ring, Real.rpow_add (by linarith), ← mul_assoc]
  refine mul_le_mul_of_nonneg_right ?_ (Real.rpow_nonneg (by linarith) _)
  rw [Real.rpow_neg (by linarith), ← Real.sqrt_eq_rpow, ← div_eq_mul_inv, div_le_iff₀ (Real.sqrt_pos.2 (by linarith)),
    show (2 : ℝ) = √4 by rw [show (4 : ℝ) = 2 ^ 2 by norm_num, Real.sqrt_sq (by norm_num)], ← Real.sqrt_mul (by norm_num)]
  refine Real.sqrt_le_sqrt ?_
  rw [show √(4 : ℝ) = 2 by rw [show (4 : ℝ) = 2 ^ 2 by norm_num, Real.sqrt_sq (by norm_num)]]
  linarith

/-- large `s`, large `n` -/
theorem bell_le_large {n s : ℝ} (h2 : 2 ≤ n) (hs : 0 < s) : bell n s ≤ 2 / √s := by
  have hn0 : 0 < n := by linarith
  have hb : (1 : ℝ) ≤ 1 + s / n := by have : 0 < s / n := by positivity
                                      linarith
  have h1 : 1 + s / 2 ≤ (1 + s / n) ^ ((n + 1) / 2) :=
    calc 1 + s / 2 = 1 + n / 2 * (s / n) := by field_simp
      _ ≤ (1 + s / n) ^ (n / 2) := one_add_mul_self_le_rpow_one_add (by have : 0 < s / n := by positivity
                                                                        linarith) (by linarith)
      _ ≤ _ := Real.rpow_le_rpow_of_exponent_le hb (by linarith)
  unfold bell
  rw [Real.rpow_neg (by linarith), ← div_eq_mul_inv, div_le_div_iff₀ (by linarith) (Real.sqrt_pos.2 hs),
    Real.mul_self_sqrt hs.le]
  linarith

/-- away from a bounded region the weight is small -/
theorem decay {e : ℝ} (he : 0 < e) : ∃ n0 s0 s1 : ℝ, 0 < n0 ∧ 0 < s0 ∧ 0 < s1 ∧ ∀ n s, 0 < n → 0 < s →
    (n < n0 ∨ s < s0 ∨ s1 < s) → top n * bell n s ≤ e := by
  set n0 := min 1 (e / 2) with hn0
  have h0 : 0 < n0 := lt_min one_pos (by positivity)
  have hlim : Tendsto (fun s : ℝ => 2 * (1 + s / 2) ^ (-(n0 / 2))) atTop (𝓝 (2 * 0)) := by
    refine ((tendsto_rpow_neg_atTop (half_pos h0)).comp ?_).const_mul 2
    exact tendsto_atTop_add_const_left _ _ (tendsto_id.atTop_div_const two_pos)
  rw [mul_zero] at hlim
  obtain ⟨S, hS⟩ := eventually_atTop.1 (hlim.eventually (gt_mem_nhds he))
  refine ⟨n0, e ^ 2, max 1 (max S (4 / e ^ 2)), h0, by positivity, by positivity, fun n s hn hs h => ?_⟩
  have ht1 : top n ≤ 1 := (top_le hn).trans topN_lt.le
  have hb := (bell_pos hn hs).le
  have red : bell n s ≤ e → top n * bell n s ≤ e := fun h => by
    have := mul_le_mul ht1 h hb zero_le_one
    linarith
  by_cases hn' : n < n0
  · have hn1 : n ≤ 1 := hn'.le.trans (min_le_left _ _)
    have := mul_le_mul (top_small hn hn1) (bell_le_n hn hs) hb (by positivity)
    rw [mul_assoc, Real.mul_self_sqrt hn.le] at this
    have h2 : n ≤ e / 2 := hn'.le.trans (min_le_right _ _)
    linarith
  · rcases h with h | h | h
    · exact absurd h hn'
    · refine red ((bell_le_sqrt hn hs).trans ?_)
      rw [Real.sqrt_le_left he.le]
      exact h.le
    · have hs1 : S ≤ s := ((le_max_left _ _).trans (le_max_right _ _)).trans h.le
      have hs2 : 4 / e ^ 2 ≤ s := ((le_max_right _ _).trans (le_max_right _ _)).trans h.le
      rcases le_or_gt n 2 with h2 | h2
      · exact red ((bell_le_mid h0 (not_lt.1 hn') h2 hs).trans (hS s hs1).le)
      · refine red ((bell_le_large h2.le hs).trans ?_)
        rw [div_le_iff₀ (Real.sqrt_pos.2 hs), ← div_le_iff₀' he]
        refine Real.le_sqrt_of_sq_le ?_
        rw [div_pow]
        norm_num
        exact hs2

/-! ### comparison with the half normal -/

theorem normal_eq {sigma x : ℝ} (hs : 0 < sigma) (hx : 0 < x) :
    halfNormalPdf sigma x = topN / sigma * Real.exp (-(x ^ 2 / sigma ^ 2) / 2) := by
  unfold halfNormalPdf topN
  rw [if_neg (not_lt.2 hx.le)]
  have := Real.sqrt_pos.2 Real.pi_pos
  congr 1
  · field_simp
  · congr 1; field_simp

theorem student_eq {n sigma x : ℝ} (hn : 0 < n) (hs : 0 < sigma) (hx : 0 < x) :
    halfStudentPdf n sigma x = top n / sigma * (1 + x ^ 2 / sigma ^ 2 / n) ^ (-((n + 1) / 2)) := by
  have h := pdf_eq hn hs hx
  unfold bell at h
  rw [Real.sqrt_div (sq_nonneg _), Real.sqrt_sq hx.le, Real.sqrt_sq hs.le] at h
  have : x * halfStudentPdf n sigma x = x * (top n / sigma * (1 + x ^ 2 / sigma ^ 2 / n) ^ (-((n + 1) / 2))) := by
    rw [h]; ring
  exact mul_left_cancel₀ hx.ne' this

/-- not much more than the half normal for many degrees of freedom -/
theorem student_le_normal {n sigma x S : ℝ} (hn : 0 < n) (hs : 0 < sigma) (hx : 0 < x) (hS : x ^ 2 / sigma ^ 2 ≤ S) :
    halfStudentPdf n sigma x ≤ halfNormalPdf sigma x * Real.exp (S ^ 2 / (2 * n)) := by
  set s := x ^ 2 / sigma ^ 2 with hsd
  have h0 : 0 < s := by positivity
  rw [student_eq hn hs hx, normal_eq hs hx, ← hsd, mul_assoc, ← Real.exp_add]
  refine mul_le_mul (div_le_div_of_nonneg_right (top_le hn) hs.le) ?_ (Real.rpow_nonneg (by positivity) _)
    (div_nonneg topN_pos.le hs.le)
  rw [Real.rpow_def_of_pos (by positivity), Real.exp_le_exp]
  have h1 : s / (n + s) ≤ Real.log (1 + s / n) := by
    have := Real.one_sub_inv_le_log_of_pos (show 0 < 1 + s / n by positivity)
    rwa [show 1 - (1 + s / n)⁻¹ = s / (n + s) by field_simp; ring] at this
  have h2 : s / 2 - s ^ 2 / (2 * n) ≤ (n + 1) / 2 * (s / (n + s)) := by
    rw [mul_div_assoc', le_div_iff₀ (by positivity)]
    have e : (s / 2 - s ^ 2 / (2 * n)) * (n + s) = n * s / 2 - s ^ 3 / (2 * n) := by field_simp; ring
    rw [e]
    have : 0 ≤ s ^ 3 / (2 * n) := by positivity
    nlinarith
  have h3 : s ^ 2 / (2 * n) ≤ S ^ 2 / (2 * n) := by
    refine div_le_div_of_nonneg_right ?_ (by positivity)
    exact pow_le_pow_left₀ h0.le hS 2
  have h4 := mul_le_mul_of_nonneg_left h1 (show 0 ≤ (n + 1) / 2 by positivity)
  have h5 : Real.log (1 + s / n) * -((n + 1) / 2) = -((n + 1) / 2 * Real.log (1 + s / n)) := by ring
  rw [h5]
  linarith

/-- the half normal is the limit -/
theorem student_tendsto {sigma x : ℝ} (hs : 0 < sigma) (hx : 0 < x) :
    Tendsto (fun n => halfStudentPdf n sigma x) atTop (𝓝 (halfNormalPdf sigma x)) := by
  set s := x ^ 2 / sigma ^ 2 with hsd
  have h0 : 0 < s := by positivity
  have hup : Tendsto (fun n : ℝ => halfNormalPdf sigma x * Real.exp (s ^ 2 / (2 * n))) atTop (𝓝 (halfNormalPdf sigma x * Real.exp 0)) := by
    refine ((Real.continuous_exp.tendsto 0).comp ?_).const_mul _
    refine Tendsto.div_atTop tendsto_const_nhds (tendsto_id.const_mul_atTop two_pos)
  have hlo : Tendsto (fun n : ℝ => halfNormalPdf sigma x * (√(n / (n + 1)) * Real.exp (-(s / (2 * n))))) atTop
      (𝓝 (halfNormalPdf sigma x * (√1 * Real.exp 0))) := by
    refine Tendsto.const_mul _ (Tendsto.mul ?_ ?_)
    · refine (Real.continuous_sqrt.tendsto 1).comp ?_
      have : Tendsto (fun n : ℝ => 1 - 1 / (n + 1)) atTop (𝓝 (1 - 0)) :=
        tendsto_const_nhds.sub (tendsto_const_nhds.div_atTop (tendsto_atTop_add_const_right _ _ tendsto_id))
      rw [sub_zero] at this
      refine this.congr' ?_
      filter_upwards [eventually_gt_atTop 0] with n hn
      field_simp
      ring
    · refine (Real.continuous_exp.tendsto 0).comp ?_
      rw [show (0 : ℝ) = -0 by simp]
      exact (tendsto_const_nhds.div_atTop (tendsto_id.const_mul_atTop two_pos)).neg
  rw [Real.exp_zero, mul_one] at hup
  rw [Real.exp_zero, Real.sqrt_one, mul_one, mul_one] at hlo
  refine tendsto_of_tendsto_of_tendsto_of_le_of_le' hlo hup ?_ ?_
  · filter_upwards [eventually_gt_atTop 0] with n hn
    rw [student_eq hn hs hx, normal_eq hs hx, ← hsd]
    have h1 : topN * √(n / (n + 1)) ≤ top n := by
      have := top_ge hn
      rwa [← Real.sqrt_div (by positivity), show n / 2 / (n / 2 + 1 / 2) = n / (n + 1) by field_simp] at this
    have h2 : Real.exp (-s / 2) * Real.exp (-(s / (2 * n))) ≤ (1 + s / n) ^ (-((n + 1) / 2)) := by
      rw [← Real.exp_add, Real.rpow_def_of_pos (by positivity), Real.exp_le_exp]
      have h3 : Real.log (1 + s / n) ≤ s / n := by
        have := Real.log_le_sub_one_of_pos (show 0 < 1 + s / n by positivity)
        linarith
      have h4 := mul_le_mul_of_nonneg_left h3 (show 0 ≤ (n + 1) / 2 by positivity)
      have h5 : (n + 1) / 2 * (s / n) = s / 2 + s / (2 * n) := by field_simp
      linarith
    calc topN / sigma * Real.exp (-s / 2) * (√(n / (n + 1)) * Real.exp (-(s / (2 * n))))
        = topN * √(n / (n + 1)) / sigma * (Real.exp (-s / 2) * Real.exp (-(s / (2 * n)))) := by ring
      _ ≤ _ := mul_le_mul (div_le_div_of_nonneg_right h1 hs.le) h2 (by positivity) (div_nonneg (top_pos hn).le hs.le)
  · filter_upwards [eventually_gt_atTop 0] with n hn
    exact student_le_normal hn hs hx le_rfl

theorem normal_pos {sigma x : ℝ} (hs : 0 < sigma) (hx : 0 < x) : 0 < halfNormalPdf sigma x := by
  rw [normal_eq hs hx]
  exact mul_pos (div_pos topN_pos hs) (Real.exp_pos _)

/-- continuity in the parameters -/
theorem student_cont {x : ℝ} (hx : 0 < x) :
    ContinuousOn (fun p : ℝ × ℝ => halfStudentPdf p.1 p.2 x) {p | 0 < p.1 ∧ 0 < p.2} := by
  refine ContinuousOn.congr (f := fun p : ℝ × ℝ => top p.1 / p.2 * (1 + x ^ 2 / p.2 ^ 2 / p.1) ^ (-((p.1 + 1) / 2))) ?_
    fun p hp => student_eq hp.1 hp.2 hx
  intro p hp
  obtain ⟨h1, h2⟩ := hp
  refine ContinuousAt.continuousWithinAt ?_
  have g : ∀ y : ℝ, 0 < y → ContinuousAt Real.Gamma y := fun y hy =>
    (Real.differentiableAt_Gamma fun m => by
      have : (0 : ℝ) ≤ m := by positivity
      linarith).continuousAt
  have t : ContinuousAt (fun p : ℝ × ℝ => top p.1) p := by
    unfold top
    refine ContinuousAt.div ?_ ?_ (mul_pos (Real.Gamma_pos_of_pos (by positivity)) (Real.sqrt_pos.2 (by positivity))).ne'
    · exact (ContinuousAt.comp (g := Real.Gamma) (f := fun p : ℝ × ℝ => (p.1 + 1) / 2) (g _ (by positivity)) (by fun_prop)).const_mul 2 |> fun h => by simpa using h
    · refine ContinuousAt.mul ?_ (by fun_prop)
      exact ContinuousAt.comp (g := Real.Gamma) (f := fun p : ℝ × ℝ => p.1 / 2) (g _ (by positivity)) (by fun_prop)
  refine (t.div continuousAt_snd h2.ne').mul ?_
  refine ContinuousAt.rpow ?_ (by fun_prop) (Or.inl (by positivity))
  refine continuousAt_const.add ((continuousAt_const.div (continuousAt_snd.pow 2) (pow_pos h2 2).ne').div continuousAt_fst h1.ne')

/-! ### the next term of the comparison -/

/-- a sharper bound for the ratio of gamma functions -/
theorem gamma_half_sharp {x : ℝ} (hx : 1 / 4 < x) : (x - 1 / 4) * Real.Gamma x ^ 2 ≤ Real.Gamma (x + 1 / 2) ^ 2 := by
  set r : ℝ → ℝ := fun y => Real.Gamma (y + 1 / 2) ^ 2 / ((y - 1 / 4) * Real.Gamma y ^ 2) with hr
  have hden : ∀ y, 1 / 4 < y → 0 < (y - 1 / 4) * Real.Gamma y ^ 2 := fun y hy =>
    mul_pos (by linarith) (pow_pos (Real.Gamma_pos_of_pos (by linarith)) 2)
  have step : ∀ y, 1 / 4 < y → r (y + 1) ≤ r y := by
    intro y hy
    have hy0 : 0 < y := by linarith
    have g1 := Real.Gamma_pos_of_pos hy0
    have g2 := Real.Gamma_pos_of_pos (show 0 < y + 1 / 2 by linarith)
    simp only [hr]
    rw [show y + 1 + 1 / 2 = y + 1 / 2 + 1 by ring, Real.Gamma_add_one (by linarith), Real.Gamma_add_one hy0.ne',
      div_le_div_iff₀ (by have : 0 < y + 1 - 1 / 4 := by linarith
                          positivity) (hden y hy)]
    have key : (y + 1 / 2) ^ 2 * (y - 1 / 4) ≤ y ^ 2 * (y + 1 - 1 / 4) := by nlinarith
    have := mul_le_mul_of_nonneg_left key (show 0 ≤ Real.Gamma (y + 1 / 2) ^ 2 * Real.Gamma y ^ 2 by positivity)
    nlinarith
  have iter : ∀ m : ℕ, r (x + m) ≤ r x := by
    intro m
    induction m with
    | zero => simp
    | succ m ih =>
      refine le_trans ?_ ih
      have := step (x + m) (by have : (0 : ℝ) ≤ m := by positivity
                               linarith)
      rwa [show x + ((m + 1 : ℕ) : ℝ) = x + m + 1 by push_cast; ring]
  have low : ∀ y, 1 / 4 < y → y ^ 2 / ((y + 1 / 2) * (y - 1 / 4)) ≤ r y := by
    intro y hy
    have hy0 : 0 < y := by linarith
    have h1 := gamma_half_ge hy0
    have g1 := Real.Gamma_pos_of_pos hy0
    have h2 := pow_le_pow_left₀ (by positivity) h1 2
    rw [mul_pow, mul_pow, Real.sq_sqrt (by linarith)] at h2
    simp only [hr]
    rw [div_le_div_iff₀ (mul_pos (by linarith) (by linarith)) (hden y hy)]
    have := mul_le_mul_of_nonneg_right h2 (show 0 ≤ y - 1 / 4 by linarith)
    nlinarith
  have hlim : Tendsto (fun m : ℕ => (x + m) ^ 2 / ((x + m + 1 / 2) * (x + m - 1 / 4))) atTop (𝓝 1) := by
    have hm : Tendsto (fun m : ℕ => x + (m : ℝ)) atTop atTop := tendsto_atTop_add_const_left _ _ tendsto_natCast_atTop_atTop
    have h1 : Tendsto (fun y : ℝ => 1 / ((1 + 1 / 2 / y) * (1 - 1 / 4 / y))) atTop (𝓝 (1 / ((1 + 0) * (1 - 0)))) := by
      refine Tendsto.div tendsto_const_nhds (Tendsto.mul ?_ ?_) (by norm_num)
      · exact tendsto_const_nhds.add (tendsto_const_nhds.div_atTop tendsto_id)
      · exact tendsto_const_nhds.sub (tendsto_const_nhds.div_atTop tendsto_id)
    rw [show (1 : ℝ) / ((1 + 0) * (1 - 0)) = 1 by norm_num] at h1
    refine (h1.comp hm).congr fun m => ?_
    have : 0 < x + (m : ℝ) := by have : (0 : ℝ) ≤ m := by positivity
                                 linarith
    have h3 : (0 : ℝ) < x + m - 1 / 4 := by have : (0 : ℝ) ≤ m := by positivity
                                            linarith
    simp only [Function.comp]
    generalize x + (m : ℝ) = y at *
    have h4 : 1 - 1 / 4 / y = (y - 1 / 4) / y := by field_simp
    have h5 : 1 + 1 / 2 / y = (y + 1 / 2) / y := by field_simp
    rw [h4, h5]
    field_simp
  have h1 : 1 ≤ r x := le_of_tendsto hlim (Filter.Eventually.of_forall fun m => (low _ (by
    have : (0 : ℝ) ≤ m := by positivity
    linarith)).trans (iter m))
  simp only [hr] at h1
  rwa [le_div_iff₀ (hden x hx), one_mul] at h1

theorem top_sharp {n : ℝ} (hn : 1 / 2 < n) : -(1 / (2 * (2 * n - 1))) ≤ Real.log (top n) - Real.log topN := by
  have hn0 : 0 < n := by linarith
  have h0 : 0 < n / 2 := by positivity
  have a := Real.sqrt_pos.2 h0
  have g := Real.Gamma_pos_of_pos h0
  have g2 := Real.Gamma_pos_of_pos (show 0 < n / 2 + 1 / 2 by positivity)
  rw [top_eq hn0, Real.log_mul topN_pos.ne' (by positivity), add_sub_cancel_left]
  have h1 := gamma_half_sharp (x := n / 2) (by linarith)
  have h2 : (2 * n - 1) / (2 * n) ≤ (Real.Gamma (n / 2 + 1 / 2) / (√(n / 2) * Real.Gamma (n / 2))) ^ 2 := by
    rw [div_pow, mul_pow, Real.sq_sqrt h0.le, div_le_div_iff₀ (by positivity) (by positivity)]
    nlinarith
  have h3 := Real.log_le_log (div_pos (by linarith) (by positivity)) h2
  rw [Real.log_pow] at h3
  have h4 := Real.one_sub_inv_le_log_of_pos (show 0 < (2 * n - 1) / (2 * n) from div_pos (by linarith) (by positivity))
  have h5 : 1 - ((2 * n - 1) / (2 * n))⁻¹ = -(1 / (2 * n - 1)) := by
    have : 2 * n - 1 ≠ 0 := by linarith
    field_simp
    ring
  rw [h5] at h4
  have h6 : 1 / (2 * (2 * n - 1)) = 1 / 2 * (1 / (2 * n - 1)) := by
    rw [one_div_mul_one_div]
  push_cast at h3
  rw [h6]
  linarith

theorem log_cubic {u : ℝ} (hu : 0 ≤ u) : Real.log (1 + u) ≤ u - u ^ 2 / 2 + u ^ 3 / 3 := by
  have hd : ∀ v : ℝ, 0 ≤ v → HasDerivAt (fun v => v - v ^ 2 / 2 + v ^ 3 / 3 - Real.log (1 + v)) (v ^ 3 / (1 + v)) v := by
    intro v hv
    have h1 : HasDerivAt (fun v : ℝ => Real.log (1 + v)) (1 / (1 + v)) v :=
      ((hasDerivAt_id v).const_add 1).log (by simp; linarith)
    have h2 : HasDerivAt (fun v : ℝ => v - v ^ 2 / 2 + v ^ 3 / 3) (1 - 2 * v / 2 + 3 * v ^ 2 / 3) v := by
      have a := (hasDerivAt_pow 2 v).div_const 2
      have b := (hasDerivAt_pow 3 v).div_const 3
      have := ((hasDerivAt_id v).sub a).add b
      exact this.congr_deriv (by norm_num)
    refine (h2.sub h1).congr_deriv ?_
    have : 1 + v ≠ 0 := by linarith
    field_simp
    ring
  have hm : MonotoneOn (fun v : ℝ => v - v ^ 2 / 2 + v ^ 3 / 3 - Real.log (1 + v)) (Ici 0) := by
    refine monotoneOn_of_deriv_nonneg (convex_Ici 0) (fun v hv => (hd v hv).continuousAt.continuousWithinAt) (fun v hv => ?_)
      fun v hv => ?_
    · rw [interior_Ici] at hv
      exact (hd v (le_of_lt hv)).differentiableAt.differentiableWithinAt
    · rw [interior_Ici] at hv
      have : 0 < v := hv
      rw [(hd v this.le).deriv]
      positivity
  have := hm (mem_Ici.2 le_rfl) hu hu
  simp at this
  linarith

/-- the difference of the log densities from below -/
theorem log_gap {n sigma x : ℝ} (hn : 1 / 2 < n) (hs : 0 < sigma) (hx : 0 < x) :
    -(1 / (2 * (2 * n - 1))) - x ^ 2 / sigma ^ 2 / (2 * n) + (x ^ 2 / sigma ^ 2) ^ 2 / (4 * n) -
        (x ^ 2 / sigma ^ 2) ^ 3 * (n + 1) / (6 * n ^ 3) ≤
      Real.log (halfStudentPdf n sigma x) - Real.log (halfNormalPdf sigma x) := by
  have hn0 : 0 < n := by linarith
  set s := x ^ 2 / sigma ^ 2 with hsd
  have h0 : 0 < s := by positivity
  have hb : 0 < 1 + s / n := by positivity
  rw [student_eq hn0 hs hx, normal_eq hs hx, ← hsd,
    Real.log_mul (div_pos (top_pos hn0) hs).ne' (Real.rpow_pos_of_pos hb _).ne',
    Real.log_mul (div_pos topN_pos hs).ne' (Real.exp_pos _).ne', Real.log_div (top_pos hn0).ne' hs.ne',
    Real.log_div topN_pos.ne' hs.ne', Real.log_rpow hb, Real.log_exp]
  have h1 := top_sharp hn
  have h2 := mul_le_mul_of_nonneg_left (log_cubic (show 0 ≤ s / n by positivity)) (show 0 ≤ (n + 1) / 2 by positivity)
  have h3 : (n + 1) / 2 * (s / n - (s / n) ^ 2 / 2 + (s / n) ^ 3 / 3) =
      s / 2 + s / (2 * n) - s ^ 2 / (4 * n) - s ^ 2 / (4 * n ^ 2) + s ^ 3 * (n + 1) / (6 * n ^ 3) := by
    field_simp
    ring
  have h4 : 0 ≤ s ^ 2 / (4 * n ^ 2) := by positivity
  rw [h3] at h2
  linarith

end Verif.MlHalf
