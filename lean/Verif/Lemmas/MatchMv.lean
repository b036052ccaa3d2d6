import Verif.Spec.MatchMv
import Mathlib.Tactic

/-!
# Means and variances of the families with two free parameters (C124)
-/

namespace Verif.Lemmas.MatchMv
open Verif.Spec

theorem mv_in (F : MvFam) (hF : F.Ok) (a b : ℝ) (h : Admissible F.mom (F.vals a b)) (hv : HasVar F.mom (F.vals a b)) :
    F.Reach (tMean F.mom (F.vals a b)) (tVar F.mom (F.vals a b)) ∧
      F.fitted (tMean F.mom (F.vals a b)) (tVar F.mom (F.vals a b)) = (a, b) := by
  have hp := Real.pi_pos
  cases F <;> simp only [MvFam.mom, MvFam.vals, Admissible, HasVar, tMean, tVar, MvFam.Reach, MvFam.fitted, MvFam.Ok,
    Prod.mk.injEq] at h hv hF ⊢
  case normal => exact ⟨by positivity, trivial, Real.sqrt_sq h.le⟩
  case laplace => exact ⟨by positivity, trivial, by rw [mul_div_cancel_left₀ _ two_ne_zero, Real.sqrt_sq h.le]⟩
  case logistic =>
    refine ⟨by positivity, trivial, ?_⟩
    rw [show 3 * (b ^ 2 * Real.pi ^ 2 / 3) = (b * Real.pi) ^ 2 by ring, Real.sqrt_sq (by positivity)]
    field_simp
  case gumbel =>
    have e : √(6 * (Real.pi ^ 2 / 6 * b ^ 2)) / Real.pi = b := by
      rw [show 6 * (Real.pi ^ 2 / 6 * b ^ 2) = (Real.pi * b) ^ 2 by ring, Real.sqrt_sq (by positivity)]
      field_simp
    rw [e]
    exact ⟨by positivity, by ring, rfl⟩
  case moyal =>
    have e : √(2 * (Real.pi ^ 2 / 2 * b ^ 2)) / Real.pi = b := by
      rw [show 2 * (Real.pi ^ 2 / 2 * b ^ 2) = (Real.pi * b) ^ 2 by ring, Real.sqrt_sq (by positivity)]
      field_simp
    rw [e]
    exact ⟨by positivity, by ring, rfl⟩
  case studentT n =>
    have h2 : 0 < n - 2 := by linarith
    have hn : 0 < n := h.1
    have hb : 0 < b := h.2
    refine ⟨by positivity, trivial, ?_⟩
    rw [show b ^ 2 * n / (n - 2) * (n - 2) / n = b ^ 2 by field_simp, Real.sqrt_sq hb.le]
  case asymmetricLaplace k =>
    obtain ⟨hk, hb⟩ := h
    have e : √(b ^ 2 * (1 + k ^ 4) / k ^ 2 * k ^ 2 / (1 + k ^ 4)) = b := by
      rw [show b ^ 2 * (1 + k ^ 4) / k ^ 2 * k ^ 2 / (1 + k ^ 4) = b ^ 2 by field_simp, Real.sqrt_sq hb.le]
    rw [e]
    exact ⟨by positivity, by ring, rfl⟩
  case uniform =>
    have h' : 0 < b - a := by linarith
    have e : √(3 * ((b - a) ^ 2 / 12)) = (b - a) / 2 := by
      rw [show 3 * ((b - a) ^ 2 / 12) = ((b - a) / 2) ^ 2 by ring, Real.sqrt_sq (by linarith)]
    rw [e]
    exact ⟨by positivity, by ring, by ring⟩
  case gamma =>
    obtain ⟨ha, hb⟩ := h
    unfold gammaMean gammaVar
    refine ⟨⟨by positivity, by positivity⟩, ?_, ?_⟩ <;> field_simp
  case inverseGamma =>
    obtain ⟨ha, hb⟩ := h
    have h1 : 0 < a - 1 := by linarith
    have h2 : 0 < a - 2 := by linarith
    unfold invGammaMean invGammaVar
    have e : (b / (a - 1)) ^ 2 / (b ^ 2 / ((a - 1) ^ 2 * (a - 2))) = a - 2 := by field_simp
    rw [e]
    refine ⟨⟨by positivity, by positivity⟩, by ring, ?_⟩
    field_simp; ring
  case logNormal =>
    have hs : 0 < Real.exp (b ^ 2) - 1 := by
      have := Real.add_one_lt_exp (x := b ^ 2) (by positivity)
      have : 0 < b ^ 2 := by positivity
      linarith
    have e : 1 + (Real.exp (b ^ 2) - 1) * Real.exp (2 * a + b ^ 2) / Real.exp (a + b ^ 2 / 2) ^ 2 = Real.exp (b ^ 2) := by
      rw [← Real.exp_nat_mul, show ((2 : ℕ) : ℝ) * (a + b ^ 2 / 2) = 2 * a + b ^ 2 by push_cast; ring,
        mul_div_cancel_right₀ _ (Real.exp_pos _).ne']
      ring
    rw [e, Real.log_exp, Real.log_exp, Real.sqrt_sq h.le]
    exact ⟨⟨by positivity, by positivity⟩, by ring, rfl⟩
  case pareto =>
    obtain ⟨ha, hb⟩ := h
    have h1 : 0 < a - 1 := by linarith
    have h2 : 0 < a - 2 := by linarith
    have e : √(1 + (a * b / (a - 1)) ^ 2 / (b ^ 2 * a / ((a - 1) ^ 2 * (a - 2)))) = a - 1 := by
      rw [show 1 + (a * b / (a - 1)) ^ 2 / (b ^ 2 * a / ((a - 1) ^ 2 * (a - 2))) = (a - 1) ^ 2 by field_simp; ring,
        Real.sqrt_sq h1.le]
    rw [e]
    refine ⟨⟨by positivity, by positivity⟩, by ring, ?_⟩
    field_simp; ring
  case wald =>
    obtain ⟨ha, hb⟩ := h
    refine ⟨⟨by positivity, by positivity⟩, trivial, ?_⟩
    field_simp
  case beta =>
    obtain ⟨ha, hb⟩ := h
    have hab : 0 < a + b := by linarith
    have hab1 : 0 < a + b + 1 := by linarith
    unfold betaMean betaVar
    have e1 : 1 - a / (a + b) = b / (a + b) := by field_simp; ring
    have e : a / (a + b) * (b / (a + b)) / (a * b / ((a + b) ^ 2 * (a + b + 1))) - 1 = a + b := by field_simp; ring
    rw [e1, e]
    refine ⟨⟨by positivity, ?_⟩, by field_simp, by field_simp⟩
    rw [div_mul_div_comm, ← pow_two]
    apply div_lt_div_of_pos_left (by positivity) (by positivity)
    nlinarith [pow_pos hab 2]

theorem mv_out (F : MvFam) (hF : F.Ok) (m v : ℝ) (h : F.Reach m v) :
    Admissible F.mom (F.vals (F.fitted m v).1 (F.fitted m v).2) ∧ HasVar F.mom (F.vals (F.fitted m v).1 (F.fitted m v).2) ∧
      tMean F.mom (F.vals (F.fitted m v).1 (F.fitted m v).2) = m ∧
      tVar F.mom (F.vals (F.fitted m v).1 (F.fitted m v).2) = v := by
  have hp := Real.pi_pos
  cases F <;> simp only [MvFam.mom, MvFam.vals, Admissible, HasVar, tMean, tVar, MvFam.Reach, MvFam.fitted, MvFam.Ok]
    at h hF ⊢
  case normal => exact ⟨by positivity, trivial, trivial, Real.sq_sqrt h.le⟩
  case laplace =>
    refine ⟨by positivity, trivial, trivial, ?_⟩
    rw [Real.sq_sqrt (by positivity)]; ring
  case logistic =>
    refine ⟨by positivity, trivial, trivial, ?_⟩
    rw [div_pow, Real.sq_sqrt (by positivity)]; field_simp
  case gumbel =>
    refine ⟨by positivity, trivial, by ring, ?_⟩
    rw [div_pow, Real.sq_sqrt (by positivity)]; field_simp
  case moyal =>
    refine ⟨by positivity, trivial, by ring, ?_⟩
    rw [div_pow, Real.sq_sqrt (by positivity)]; field_simp
  case studentT n =>
    have h2 : 0 < n - 2 := by linarith
    have hn : 0 < n := by linarith
    refine ⟨⟨hn, by positivity⟩, hF, trivial, ?_⟩
    rw [Real.sq_sqrt (by positivity)]; field_simp
  case asymmetricLaplace k =>
    refine ⟨⟨hF, by positivity⟩, trivial, by ring, ?_⟩
    rw [Real.sq_sqrt (by positivity)]; field_simp
  case uniform =>
    have : 0 < √(3 * v) := by positivity
    refine ⟨by linarith, trivial, by ring, ?_⟩
    rw [show (m + √(3 * v) - (m - √(3 * v))) ^ 2 = 4 * √(3 * v) ^ 2 by ring, Real.sq_sqrt (by positivity)]; ring
  case gamma =>
    obtain ⟨hm, hv⟩ := h
    unfold gammaMean gammaVar
    refine ⟨⟨by positivity, by positivity⟩, trivial, ?_, ?_⟩ <;> field_simp
  case inverseGamma =>
    obtain ⟨hm, hv⟩ := h
    have : 0 < m ^ 2 / v := by positivity
    have e1 : m ^ 2 / v + 2 - 1 = m ^ 2 / v + 1 := by ring
    have e2 : m ^ 2 / v + 2 - 2 = m ^ 2 / v := by ring
    unfold invGammaMean invGammaVar
    rw [e1, e2]
    refine ⟨⟨by positivity, by positivity⟩, by linarith, ?_, ?_⟩ <;> field_simp
  case logNormal =>
    obtain ⟨hm, hv⟩ := h
    have h1 : 0 < v / m ^ 2 := by positivity
    have hl : 0 < Real.log (1 + v / m ^ 2) := Real.log_pos (by linarith)
    rw [Real.sq_sqrt hl.le, Real.exp_log (by positivity)]
    refine ⟨by positivity, trivial, ?_, ?_⟩
    · rw [sub_add_cancel, Real.exp_log hm]
    · rw [show 2 * (Real.log m - Real.log (1 + v / m ^ 2) / 2) + Real.log (1 + v / m ^ 2) = Real.log m + Real.log m by ring,
        Real.exp_add, Real.exp_log hm]
      field_simp; ring
  case pareto =>
    obtain ⟨hm, hv⟩ := h
    have h1 : 0 < m ^ 2 / v := by positivity
    set r := √(1 + m ^ 2 / v) with hr
    have hr2 : r ^ 2 = 1 + m ^ 2 / v := Real.sq_sqrt (by positivity)
    have hr1 : 1 < r := by rw [hr, Real.lt_sqrt (by norm_num)]; linarith
    have hr0 : 0 < r := by linarith
    have e1 : 1 + r - 1 = r := by ring
    have e2 : 1 + r - 2 = r - 1 := by ring
    have hrm : 0 < r - 1 := by linarith
    have hv' : v * (r ^ 2 - 1) = m ^ 2 := by rw [hr2]; field_simp; ring
    rw [e1, e2]
    refine ⟨⟨by positivity, by positivity⟩, by linarith, by field_simp, ?_⟩
    rw [div_eq_iff (by positivity), div_pow, div_mul_eq_mul_div, div_eq_iff (by positivity), mul_pow, ← hv']
    ring
  case wald =>
    obtain ⟨hm, hv⟩ := h
    refine ⟨⟨hm, by positivity⟩, trivial, trivial, ?_⟩
    field_simp
  case beta =>
    obtain ⟨hv, hlt⟩ := h
    have h0 : 0 < m * (1 - m) := hv.trans hlt
    have hm : 0 < m := by
      by_contra hc
      push Not at hc
      nlinarith
    have hm1 : 0 < 1 - m := by
      by_contra hc
      push Not at hc
      nlinarith
    have hn : 0 < m * (1 - m) / v - 1 := by
      rw [sub_pos, lt_div_iff₀ hv]; linarith
    unfold betaMean betaVar
    set n := m * (1 - m) / v - 1 with hnd
    have hnv : v * (n + 1) = m * (1 - m) := by rw [hnd]; field_simp; ring
    have e : m * n + (1 - m) * n = n := by ring
    rw [e]
    refine ⟨⟨by positivity, by positivity⟩, trivial, by field_simp, ?_⟩
    rw [div_eq_iff (by positivity)]
    calc m * n * ((1 - m) * n) = n ^ 2 * (m * (1 - m)) := by ring
      _ = v * (n ^ 2 * (n + 1)) := by rw [← hnv]; ring

/-- the objective of a family with mean `c1 * s` and variance `c2 * s ^ 2` -/
theorem quartic_min {c1 c2 m v s0 s : ℝ} (h1 : 0 < c1) (h2 : 0 < c2) (hm : 0 < m) (h0 : 0 < s0)
    (e : 2 * c2 ^ 2 * s0 ^ 3 + (c1 ^ 2 - 2 * c2 * v) * s0 = c1 * m)
    (hle : (c1 * s - m) ^ 2 + (c2 * s ^ 2 - v) ^ 2 ≤ (c1 * s0 - m) ^ 2 + (c2 * s0 ^ 2 - v) ^ 2) : s = s0 := by
  have key : s0 * ((c1 * s - m) ^ 2 + (c2 * s ^ 2 - v) ^ 2 - ((c1 * s0 - m) ^ 2 + (c2 * s0 ^ 2 - v) ^ 2)) =
      (s - s0) ^ 2 * (s0 * c2 ^ 2 * (s + s0) ^ 2 + c1 * m) := by
    linear_combination ((s - s0) ^ 2 - 2 * s0 * (s0 - s)) * e
  have hq : 0 < s0 * c2 ^ 2 * (s + s0) ^ 2 + c1 * m := by positivity
  have hl : s0 * ((c1 * s - m) ^ 2 + (c2 * s ^ 2 - v) ^ 2 - ((c1 * s0 - m) ^ 2 + (c2 * s0 ^ 2 - v) ^ 2)) ≤ 0 :=
    mul_nonpos_of_nonneg_of_nonpos h0.le (by linarith)
  rw [key] at hl
  have : (s - s0) ^ 2 ≤ 0 := by
    by_contra hc
    push Not at hc
    have := mul_pos hc hq
    linarith
  have h := pow_eq_zero_iff two_ne_zero |>.1 (le_antisymm this (sq_nonneg _))
  linarith

/-- the equation has exactly one positive root -/
theorem cubic_root {c1 c2 m v : ℝ} (h1 : 0 < c1) (h2 : 0 < c2) (hm : 0 < m) :
    ∃! s, 0 < s ∧ 2 * c2 ^ 2 * s ^ 3 + (c1 ^ 2 - 2 * c2 * v) * s = c1 * m := by
  have hcont : Continuous fun s : ℝ => 2 * c2 ^ 2 * s ^ 3 + (c1 ^ 2 - 2 * c2 * v) * s := by fun_prop
  obtain ⟨M, hM0, hM⟩ : ∃ M : ℝ, 0 ≤ M ∧ c1 * m ≤ 2 * c2 ^ 2 * M ^ 3 + (c1 ^ 2 - 2 * c2 * v) * M := by
    have hc : 0 < 2 * c2 ^ 2 := by positivity
    have ha := abs_nonneg (c1 ^ 2 - 2 * c2 * v)
    set A := |c1 ^ 2 - 2 * c2 * v| with hA
    have hA' : -A ≤ c1 ^ 2 - 2 * c2 * v := neg_abs_le _
    refine ⟨1 + (A + c1 * m) / (2 * c2 ^ 2), by positivity, ?_⟩
    set M := 1 + (A + c1 * m) / (2 * c2 ^ 2) with hMd
    have hM1 : 1 ≤ M := by rw [hMd]; have : 0 ≤ (A + c1 * m) / (2 * c2 ^ 2) := by positivity
                           linarith
    have e : 2 * c2 ^ 2 * M = 2 * c2 ^ 2 + (A + c1 * m) := by rw [hMd]; field_simp
    have e2 : 2 * c2 ^ 2 * M ^ 3 + (c1 ^ 2 - 2 * c2 * v) * M =
        M * (M * (2 * c2 ^ 2 * M) + (c1 ^ 2 - 2 * c2 * v)) := by ring
    rw [e2, e]
    have hcm : 0 < c1 * m := by positivity
    have i1 : 2 * c2 ^ 2 + (A + c1 * m) ≤ M * (2 * c2 ^ 2 + (A + c1 * m)) :=
      le_mul_of_one_le_left (by positivity) hM1
    have i2 : c1 * m ≤ M * (2 * c2 ^ 2 + (A + c1 * m)) + (c1 ^ 2 - 2 * c2 * v) := by linarith
    exact i2.trans (le_mul_of_one_le_left (hcm.le.trans i2) hM1)
  obtain ⟨s, ⟨hs0, -⟩, hs⟩ := intermediate_value_Icc hM0 hcont.continuousOn
    (show c1 * m ∈ Set.Icc _ _ from ⟨by simp; positivity, hM⟩)
  dsimp only at hs
  have hspos : 0 < s := by
    rcases hs0.eq_or_lt with h | h
    · subst h
      have : 0 < c1 * m := by positivity
      simp at hs
      rcases hs with h | h <;> linarith
    · exact h
  refine ⟨s, ⟨hspos, hs⟩, ?_⟩
  rintro t ⟨ht, et⟩
  rcases le_total ((c1 * t - m) ^ 2 + (c2 * t ^ 2 - v) ^ 2) ((c1 * s - m) ^ 2 + (c2 * s ^ 2 - v) ^ 2) with h | h
  · exact quartic_min h1 h2 hm hspos hs h
  · exact (quartic_min h1 h2 hm ht et h).symm

end Verif.Lemmas.MatchMv
