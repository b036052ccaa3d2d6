import Mathlib.Analysis.SpecialFunctions.Gamma.Beta
import Mathlib.Tactic

/-!
# Bounds on the ratio `Γ(1+2u) / Γ(1+u)²`

Euler's limit makes the ratio an infinite product of rational factors.  The product of all factors from some index on is
caught between two rational functions whose quotients at successive indices dominate, or are dominated by, the factors.
-/

namespace Verif.GammaDouble

open Filter Topology

/-- the factor with index `n` -/
noncomputable def fac (u : ℝ) (n : ℕ) : ℝ := (n + 1 + u) ^ 2 / ((n + 1) * (n + 1 + 2 * u))

/-- the first `n` factors -/
noncomputable def part (u : ℝ) (n : ℕ) : ℝ := ∏ j ∈ Finset.range n, fac u j

theorem part_succ (u : ℝ) (n : ℕ) : part u (n + 1) = part u n * fac u n := Finset.prod_range_succ _ _

theorem part_pos {u : ℝ} (hu : 0 ≤ u) (n : ℕ) : 0 < part u n :=
  Finset.prod_pos fun j _ => by unfold fac; positivity

/-- Euler's product -/
theorem tendsto_part {u : ℝ} (hu : 0 ≤ u) :
    Tendsto (part u) atTop (𝓝 (Real.Gamma (1 + 2 * u) / Real.Gamma (1 + u) ^ 2)) := by
  have hG : Real.Gamma (1 + u) ^ 2 ≠ 0 := (pow_pos (Real.Gamma_pos_of_pos (by linarith)) 2).ne'
  have h := ((Real.GammaSeq_tendsto_Gamma (1 + 2 * u)).mul (Real.GammaSeq_tendsto_Gamma 1)).div
    ((Real.GammaSeq_tendsto_Gamma (1 + u)).pow 2) hG
  rw [Real.Gamma_one, mul_one] at h
  rw [← tendsto_add_atTop_iff_nat 1]
  refine h.congr' ?_
  filter_upwards [eventually_gt_atTop 0] with n hn
  have hn' : (0 : ℝ) < n := by exact_mod_cast hn
  simp only [Pi.mul_apply, Pi.div_apply, Pi.pow_apply, Real.GammaSeq]
  have hp : part u (n + 1) = (∏ j ∈ Finset.range (n + 1), (1 + u + (j : ℝ))) ^ 2 /
      ((∏ j ∈ Finset.range (n + 1), (1 + 2 * u + (j : ℝ))) * ∏ j ∈ Finset.range (n + 1), (1 + (j : ℝ))) := by
    unfold part fac
    rw [Finset.prod_div_distrib, Finset.prod_mul_distrib, Finset.prod_pow]
    congr 1
    · congr 1; exact Finset.prod_congr rfl fun j _ => by ring
    · rw [mul_comm]; congr 1
      · exact Finset.prod_congr rfl fun j _ => by ring
      · exact Finset.prod_congr rfl fun j _ => by ring
  rw [hp]
  have h1 : 0 < ∏ j ∈ Finset.range (n + 1), (1 + u + (j : ℝ)) := Finset.prod_pos fun j _ => by positivity
  have h2 : 0 < ∏ j ∈ Finset.range (n + 1), (1 + 2 * u + (j : ℝ)) := Finset.prod_pos fun j _ => by positivity
  have h3 : 0 < ∏ j ∈ Finset.range (n + 1), (1 + (j : ℝ)) := Finset.prod_pos fun j _ => by positivity
  have hf : (0 : ℝ) < (n.factorial : ℝ) := by exact_mod_cast n.factorial_pos
  have e : (n : ℝ) ^ (1 + 2 * u) * (n : ℝ) ^ (1 : ℝ) = ((n : ℝ) ^ (1 + u)) ^ 2 := by
    rw [← Real.rpow_add hn', ← Real.rpow_natCast, ← Real.rpow_mul hn'.le]
    congr 1; push_cast; ring
  have hx : 0 < (n : ℝ) ^ (1 + u) := Real.rpow_pos_of_pos hn' _
  generalize (∏ j ∈ Finset.range (n + 1), (1 + u + (j : ℝ))) = A at *
  generalize (∏ j ∈ Finset.range (n + 1), (1 + 2 * u + (j : ℝ))) = B at *
  generalize (∏ j ∈ Finset.range (n + 1), (1 + (j : ℝ))) = C at *
  generalize (n : ℝ) ^ (1 + 2 * u) = X at *
  generalize (n : ℝ) ^ (1 : ℝ) = Y at *
  generalize (n : ℝ) ^ (1 + u) = Z at *
  generalize (n.factorial : ℝ) = F at *
  rw [show X * F / B * (Y * F / C) = X * Y * F ^ 2 / (B * C) by field_simp, e]
  field_simp

/-! ## from above -/

/-- dominates the factors from index `n` on -/
noncomputable def hi (u : ℝ) (n : ℕ) : ℝ := (2 * n + 1 + 2 * u + u ^ 2) / (2 * n + 1 + 2 * u - u ^ 2)

theorem hi_step {u : ℝ} (hu : 0 ≤ u) {n : ℕ} (hn : 0 < 2 * n + 1 + 2 * u - u ^ 2) :
    fac u n * hi u (n + 1) ≤ hi u n := by
  unfold fac hi
  push_cast
  have h1 : 0 < 2 * ((n : ℝ) + 1) + 1 + 2 * u - u ^ 2 := by linarith
  have h2 : (0 : ℝ) < (n + 1) * (n + 1 + 2 * u) := by positivity
  rw [div_mul_div_comm, div_le_div_iff₀ (mul_pos h2 h1) hn]
  have e : (2 * (n : ℝ) + 1 + 2 * u + u ^ 2) * ((n + 1) * (n + 1 + 2 * u) * (2 * (n + 1) + 1 + 2 * u - u ^ 2)) -
      (n + 1 + u) ^ 2 * (2 * (n + 1) + 1 + 2 * u + u ^ 2) * (2 * n + 1 + 2 * u - u ^ 2) =
      u ^ 2 * (u ^ 2 - 1) ^ 2 := by ring
  nlinarith [mul_nonneg (sq_nonneg u) (sq_nonneg (u ^ 2 - 1))]

theorem ratio_le {u : ℝ} (hu : 0 ≤ u) {N : ℕ} (hN : 0 < 2 * N + 1 + 2 * u - u ^ 2) :
    Real.Gamma (1 + 2 * u) / Real.Gamma (1 + u) ^ 2 ≤ part u N * hi u N := by
  have hpos : ∀ n, N ≤ n → 0 < 2 * (n : ℝ) + 1 + 2 * u - u ^ 2 := by
    intro n hn
    have : (N : ℝ) ≤ n := by exact_mod_cast hn
    linarith
  have hanti : ∀ n, N ≤ n → part u n * hi u n ≤ part u N * hi u N := by
    intro n hn
    induction n, hn using Nat.le_induction with
    | base => exact le_rfl
    | succ n hn ih =>
      refine le_trans ?_ ih
      rw [part_succ, mul_assoc]
      exact mul_le_mul_of_nonneg_left (hi_step hu (hpos n hn)) (part_pos hu n).le
  refine le_of_tendsto (tendsto_part hu) ?_
  filter_upwards [eventually_ge_atTop N] with n hn
  refine le_trans ?_ (hanti n hn)
  refine le_mul_of_one_le_right (part_pos hu n).le ?_
  unfold hi
  rw [one_le_div (hpos n hn)]
  nlinarith [sq_nonneg u]

/-! ## from below -/

/-- dominated by the factors from index `n` on when `d` is large enough -/
noncomputable def lo (u d : ℝ) (n : ℕ) : ℝ :=
  (2 * n + 1 + 2 * u + d + u ^ 2) / (2 * n + 1 + 2 * u + d - u ^ 2)

theorem lo_step {u d : ℝ} (hu : 0 ≤ u) (hd : 0 ≤ d) {n : ℕ} (hn : 0 < 2 * n + 1 + 2 * u - u ^ 2)
    (h : (u ^ 2 - 1) ^ 2 ≤ 4 * d * (n + 1 + u)) : lo u d n ≤ fac u n * lo u d (n + 1) := by
  unfold fac lo
  push_cast
  have h0 : 0 < 2 * (n : ℝ) + 1 + 2 * u + d - u ^ 2 := by linarith
  have h1 : 0 < 2 * ((n : ℝ) + 1) + 1 + 2 * u + d - u ^ 2 := by linarith
  have h2 : (0 : ℝ) < (n + 1) * (n + 1 + 2 * u) := by positivity
  rw [div_mul_div_comm, div_le_div_iff₀ h0 (mul_pos h2 h1)]
  have e : (n + 1 + u) ^ 2 * (2 * (n + 1) + 1 + 2 * u + d + u ^ 2) * (2 * n + 1 + 2 * u + d - u ^ 2) -
      (2 * (n : ℝ) + 1 + 2 * u + d + u ^ 2) * ((n + 1) * (n + 1 + 2 * u) * (2 * (n + 1) + 1 + 2 * u + d - u ^ 2)) =
      u ^ 2 * (4 * d * (n + 1 + u) + d ^ 2 - (u ^ 2 - 1) ^ 2) := by ring
  have : 0 ≤ u ^ 2 * (4 * d * (n + 1 + u) + d ^ 2 - (u ^ 2 - 1) ^ 2) :=
    mul_nonneg (sq_nonneg u) (by nlinarith [sq_nonneg d])
  linarith

theorem le_ratio {u d : ℝ} (hu : 0 ≤ u) (hd : 0 ≤ d) {N : ℕ} (hN : 0 < 2 * N + 1 + 2 * u - u ^ 2)
    (h : (u ^ 2 - 1) ^ 2 ≤ 4 * d * (N + 1 + u)) :
    part u N * lo u d N ≤ Real.Gamma (1 + 2 * u) / Real.Gamma (1 + u) ^ 2 := by
  have hpos : ∀ n, N ≤ n → 0 < 2 * (n : ℝ) + 1 + 2 * u - u ^ 2 ∧ (u ^ 2 - 1) ^ 2 ≤ 4 * d * (n + 1 + u) := by
    intro n hn
    have : (N : ℝ) ≤ n := by exact_mod_cast hn
    exact ⟨by linarith, by nlinarith⟩
  have hmono : ∀ n, N ≤ n → part u N * lo u d N ≤ part u n * lo u d n := by
    intro n hn
    induction n, hn using Nat.le_induction with
    | base => exact le_rfl
    | succ n hn ih =>
      refine le_trans ih ?_
      rw [part_succ, mul_assoc]
      exact mul_le_mul_of_nonneg_left (lo_step hu hd (hpos n hn).1 (hpos n hn).2) (part_pos hu n).le
  have hlim : Tendsto (lo u d) atTop (𝓝 1) := by
    have h1 : Tendsto (fun n : ℕ => 2 * (n : ℝ) + 1 + 2 * u + d - u ^ 2) atTop atTop := by
      have := (tendsto_natCast_atTop_atTop (R := ℝ)).const_mul_atTop (show (0 : ℝ) < 2 by norm_num)
      refine (tendsto_atTop_add_const_right _ (1 + 2 * u + d - u ^ 2) this).congr fun n => by ring
    have h2 : Tendsto (fun n : ℕ => 1 + 2 * u ^ 2 / (2 * (n : ℝ) + 1 + 2 * u + d - u ^ 2)) atTop (𝓝 (1 + 0)) :=
      tendsto_const_nhds.add (tendsto_const_nhds.div_atTop h1)
    rw [add_zero] at h2
    refine h2.congr' ?_
    filter_upwards [eventually_ge_atTop N] with n hn
    have := (hpos n hn).1
    have h0 : 2 * (n : ℝ) + 1 + 2 * u + d - u ^ 2 ≠ 0 := by linarith
    unfold lo
    field_simp
    ring
  have := (tendsto_part hu).mul hlim
  rw [mul_one] at this
  refine ge_of_tendsto this ?_
  filter_upwards [eventually_ge_atTop N] with n hn using hmono n hn

end Verif.GammaDouble
