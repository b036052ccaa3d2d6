import Verif.Lemmas.MlNegBin
import Mathlib.Analysis.SpecialFunctions.Pow.Asymptotics
import Mathlib.Analysis.SpecialFunctions.Pow.Continuity
import Mathlib.Analysis.SpecialFunctions.Log.Base
import Mathlib.Tactic

/-!
# Most likely DiscreteWeibull distributions

If the sample contains two counts that differ by two or more, the likelihood tends to zero towards every end of the domain.
-/

namespace Verif.Ml
open Verif.Spec Filter Topology

section Lik
variable {α : Type} {f : α → ℝ} {s : List α}

theorem lik_le_one (h0 : ∀ x ∈ s, 0 ≤ f x) (h1 : ∀ x ∈ s, f x ≤ 1) : 0 ≤ lik f s ∧ lik f s ≤ 1 := by
  unfold lik
  induction s with
  | nil => simp
  | cons a t ih =>
    obtain ⟨i0, i1⟩ := ih (fun x hx => h0 x (List.mem_cons_of_mem _ hx)) fun x hx => h1 x (List.mem_cons_of_mem _ hx)
    have a0 := h0 a List.mem_cons_self
    have a1 := h1 a List.mem_cons_self
    simp only [List.map_cons, List.prod_cons]
    exact ⟨mul_nonneg a0 i0, mul_le_one₀ a1 i0 i1⟩

theorem lik_le_mem (h0 : ∀ x ∈ s, 0 ≤ f x) (h1 : ∀ x ∈ s, f x ≤ 1) {y : α} (hy : y ∈ s) : lik f s ≤ f y := by
  induction s with
  | nil => simp at hy
  | cons a t ih =>
    have t0 := fun x hx => h0 x (List.mem_cons_of_mem _ hx)
    have t1 := fun x hx => h1 x (List.mem_cons_of_mem _ hx)
    obtain ⟨i0, i1⟩ := lik_le_one t0 t1
    have a0 := h0 a List.mem_cons_self
    have a1 := h1 a List.mem_cons_self
    have e : lik f (a :: t) = f a * lik f t := by simp [lik]
    rw [e]
    rcases List.mem_cons.1 hy with rfl | hy
    · exact mul_le_of_le_one_right a0 i1
    · exact (mul_le_of_le_one_left i0 a1).trans (ih t0 t1 hy)

theorem lik_le_pair (h0 : ∀ x ∈ s, 0 ≤ f x) (h1 : ∀ x ∈ s, f x ≤ 1) {x y : α} (hx : x ∈ s) (hy : y ∈ s) (hxy : x ≠ y) :
    lik f s ≤ f x * f y := by
  induction s with
  | nil => simp at hy
  | cons a t ih =>
    have t0 := fun x hx => h0 x (List.mem_cons_of_mem _ hx)
    have t1 := fun x hx => h1 x (List.mem_cons_of_mem _ hx)
    obtain ⟨i0, i1⟩ := lik_le_one t0 t1
    have a0 := h0 a List.mem_cons_self
    have a1 := h1 a List.mem_cons_self
    have e : lik f (a :: t) = f a * lik f t := by simp [lik]
    rw [e]
    rcases List.mem_cons.1 hx with rfl | hx1 <;> rcases List.mem_cons.1 hy with rfl | hy1
    · exact absurd rfl hxy
    · exact mul_le_mul_of_nonneg_left (lik_le_mem t0 t1 hy1) a0
    · rw [mul_comm (f x)]
      exact mul_le_mul_of_nonneg_left (lik_le_mem t0 t1 hx1) a0
    · exact (mul_le_of_le_one_left i0 a1).trans (ih t0 t1 hx1 hy1)

end Lik

section Bounds
set_option linter.unusedSectionVars false
variable {q β : ℝ} (h0 : 0 < q) (h1 : q < 1) (hβ : 0 < β)
include h0 h1 hβ

theorem disWeibull_pos (x : ℕ) : 0 < discreteWeibullPmf q β x := by
  unfold discreteWeibullPmf
  rw [sub_pos]
  exact Real.rpow_lt_rpow_of_exponent_gt h0 h1 (Real.rpow_lt_rpow (by positivity) (by linarith) hβ)

omit hβ in
private theorem pow_exp (y : ℝ) : q ^ y = Real.exp (-(-Real.log q * y)) := by
  rw [Real.rpow_def_of_pos h0]
  congr 1
  ring

theorem disWeibull_le_tail (x : ℕ) : discreteWeibullPmf q β x ≤ q ^ ((x : ℝ) ^ β) := by
  unfold discreteWeibullPmf
  have := Real.rpow_pos_of_pos h0 (((x : ℝ) + 1) ^ β)
  linarith

theorem disWeibull_le_head (x : ℕ) : discreteWeibullPmf q β x ≤ -Real.log q * ((x : ℝ) + 1) ^ β := by
  unfold discreteWeibullPmf
  have h2 : q ^ ((x : ℝ) ^ β) ≤ 1 := Real.rpow_le_one h0.le h1.le (by positivity)
  rw [pow_exp h0 h1 (((x : ℝ) + 1) ^ β)]
  have := Real.add_one_le_exp (-(-Real.log q * ((x : ℝ) + 1) ^ β))
  linarith

theorem disWeibull_le_one (x : ℕ) : discreteWeibullPmf q β x ≤ 1 :=
  (disWeibull_le_tail h0 h1 hβ x).trans (Real.rpow_le_one h0.le h1.le (by positivity))

omit h0 h1 hβ in
private theorem mul_exp_le (w : ℝ) : w * Real.exp (-w) ≤ 1 := by
  rw [Real.exp_neg, ← div_eq_mul_inv, div_le_one (Real.exp_pos _)]
  linarith [Real.add_one_le_exp w]

/-- small shapes -/
theorem disWeibull_small (x : ℕ) (hx : 1 ≤ x) : discreteWeibullPmf q β x ≤ 2 ^ β - 1 := by
  have hx1 : (1 : ℝ) ≤ x := by exact_mod_cast hx
  have hx0 : (0 : ℝ) < x := by linarith
  unfold discreteWeibullPmf
  rw [pow_exp h0 h1, pow_exp h0 h1]
  have hl : 0 < -Real.log q := by linarith [Real.log_neg h0 h1]
  obtain ⟨w, hw⟩ : ∃ w, w = -Real.log q * (x : ℝ) ^ β := ⟨_, rfl⟩
  have hw0 : 0 < w := by rw [hw]; positivity
  have hr : ((x : ℝ) + 1) ^ β ≤ 2 ^ β * (x : ℝ) ^ β := by
    rw [← Real.mul_rpow (by norm_num) hx0.le]
    exact Real.rpow_le_rpow (by positivity) (by linarith) hβ.le
  have h2 : 1 ≤ (2 : ℝ) ^ β := Real.one_le_rpow (by norm_num) hβ.le
  have h3 : -Real.log q * ((x : ℝ) + 1) ^ β ≤ 2 ^ β * w := by
    rw [hw]
    calc _ ≤ -Real.log q * (2 ^ β * (x : ℝ) ^ β) := mul_le_mul_of_nonneg_left hr hl.le
      _ = _ := by ring
  have h4 : Real.exp (-(2 ^ β * w)) ≤ Real.exp (-(-Real.log q * ((x : ℝ) + 1) ^ β)) := Real.exp_le_exp.2 (by linarith)
  rw [← hw]
  have h5 : Real.exp (-(2 ^ β * w)) = Real.exp (-w) * Real.exp (-((2 ^ β - 1) * w)) := by
    rw [← Real.exp_add]
    congr 1
    ring
  have h6 := Real.add_one_le_exp (-((2 ^ β - 1) * w))
  have h7 := mul_exp_le w
  have h8 := Real.exp_pos (-w)
  have h9 : Real.exp (-w) * (-((2 ^ β - 1) * w) + 1) ≤ Real.exp (-(2 ^ β * w)) := h5 ▸ mul_le_mul_of_nonneg_left h6 h8.le
  have h10 : (2 ^ β - 1) * (w * Real.exp (-w)) ≤ 2 ^ β - 1 := mul_le_of_le_one_right (by linarith) h7
  nlinarith

/-- large shapes -/
theorem disWeibull_large (x y : ℕ) (hy : 1 ≤ y) :
    discreteWeibullPmf q β x * discreteWeibullPmf q β y ≤ (((x : ℝ) + 1) / y) ^ β := by
  have hy1 : (1 : ℝ) ≤ y := by exact_mod_cast hy
  have hy0 : (0 : ℝ) < y := by linarith
  have hx0 : (0 : ℝ) < (x : ℝ) + 1 := by positivity
  have hl : 0 < -Real.log q := by linarith [Real.log_neg h0 h1]
  have b1 := disWeibull_le_head h0 h1 hβ x
  have b2 := disWeibull_le_tail h0 h1 hβ y
  rw [pow_exp h0 h1] at b2
  have p1 := (disWeibull_pos h0 h1 hβ y).le
  have hX : 0 < ((x : ℝ) + 1) ^ β := by positivity
  have hY : 0 < (y : ℝ) ^ β := by positivity
  refine (mul_le_mul b1 b2 p1 (by positivity)).trans ?_
  rw [Real.div_rpow hx0.le hy0.le, le_div_iff₀ hY]
  have := mul_exp_le (-Real.log q * (y : ℝ) ^ β)
  calc _ = ((x : ℝ) + 1) ^ β * (-Real.log q * (y : ℝ) ^ β * Real.exp (-(-Real.log q * (y : ℝ) ^ β))) := by ring
    _ ≤ ((x : ℝ) + 1) ^ β * 1 := mul_le_mul_of_nonneg_left this hX.le
    _ = _ := mul_one _

end Bounds

private theorem dw_cont (s : List ℕ) : ContinuousOn (fun p : ℝ × ℝ => lik (discreteWeibullPmf p.1 p.2) s)
    {p | 0 < p.1 ∧ 0 < p.2} := by
  have hx : ∀ y : ℝ, ContinuousOn (fun p : ℝ × ℝ => p.1 ^ (y ^ p.2)) {p | 0 < p.1 ∧ 0 < p.2} := by
    intro y
    refine ContinuousOn.rpow continuous_fst.continuousOn ?_ fun p hp => Or.inl hp.1.ne'
    exact ContinuousOn.rpow continuousOn_const continuous_snd.continuousOn fun p hp => Or.inr hp.2
  unfold lik
  induction s with
  | nil => simpa using continuousOn_const
  | cons a t ih =>
    simp only [List.map_cons, List.prod_cons]
    exact ContinuousOn.mul ((hx a).sub (hx (a + 1))) ih

/-- two counts that differ by two or more: there are most likely parameters -/
theorem disWeibull_exists (s : List ℕ) (x y : ℕ) (hx : x ∈ s) (hy : y ∈ s) (hxy : x + 2 ≤ y) :
    ∃ p : ℝ × ℝ, ((0 < p.1 ∧ p.1 < 1) ∧ 0 < p.2) ∧ ∀ p' : ℝ × ℝ, (0 < p'.1 ∧ p'.1 < 1) ∧ 0 < p'.2 →
      lik (discreteWeibullPmf p'.1 p'.2) s ≤ lik (discreteWeibullPmf p.1 p.2) s := by
  obtain ⟨M, hM⟩ : ∃ M, M = lik (discreteWeibullPmf (1 / 2) 1) s := ⟨_, rfl⟩
  have hM0 : 0 < M := hM ▸ lik_pos' fun z _ => disWeibull_pos (by norm_num) (by norm_num) one_pos z
  have hy1 : 1 ≤ y := by omega
  have hyr : (0 : ℝ) < y := by exact_mod_cast hy1
  have hne : x ≠ y := by omega
  -- the shape
  obtain ⟨b0, hb0, hb0'⟩ : ∃ b0 : ℝ, 0 < b0 ∧ ∀ β ≤ b0, (2 : ℝ) ^ β - 1 < M := by
    refine ⟨Real.logb 2 (1 + M / 2), Real.logb_pos (by norm_num) (by linarith), fun β hβ => ?_⟩
    have := Real.rpow_le_rpow_of_exponent_le (x := 2) (by norm_num) hβ
    rw [Real.rpow_logb (by norm_num) (by norm_num) (by positivity)] at this
    linarith
  obtain ⟨b1, hb1⟩ : ∃ b1 : ℝ, ∀ β, b1 ≤ β → (((x : ℝ) + 1) / y) ^ β < M := by
    have hlt : ((x : ℝ) + 1) / y < 1 := by
      rw [div_lt_one hyr]
      have : ((x + 2 : ℕ) : ℝ) ≤ y := by exact_mod_cast hxy
      push_cast at this
      linarith
    have ht := tendsto_rpow_atTop_of_base_lt_one (((x : ℝ) + 1) / y) (by
      have : (0 : ℝ) ≤ ((x : ℝ) + 1) / y := by positivity
      linarith) hlt
    exact eventually_atTop.1 (ht.eventually (gt_mem_nhds hM0))
  obtain ⟨L, hL⟩ : ∃ L, L = M / (2 * ((y : ℝ) + 1) ^ b1) := ⟨_, rfl⟩
  have hY : 0 < ((y : ℝ) + 1) ^ b1 := by positivity
  have hL0 : 0 < L := by rw [hL]; positivity
  -- outside of a rectangle the sample is less likely than for `1 / 2, 1`
  have hout : ∀ p : ℝ × ℝ, (0 < p.1 ∧ p.1 < 1) ∧ 0 < p.2 → M ≤ lik (discreteWeibullPmf p.1 p.2) s →
      p ∈ Set.Icc M (Real.exp (-L)) ×ˢ Set.Icc b0 b1 := by
    rintro ⟨q, β⟩ ⟨⟨q0, q1⟩, hβ⟩ h
    simp only at q0 q1 hβ h
    have n0 : ∀ z ∈ s, 0 ≤ discreteWeibullPmf q β z := fun z _ => (disWeibull_pos q0 q1 hβ z).le
    have n1 : ∀ z ∈ s, discreteWeibullPmf q β z ≤ 1 := fun z _ => disWeibull_le_one q0 q1 hβ z
    have l1 := h.trans (lik_le_mem n0 n1 hy)
    have l2 := h.trans (lik_le_pair n0 n1 hx hy hne)
    have c1 : b0 ≤ β := by
      by_contra hc
      have := hb0' β (not_le.1 hc).le
      linarith [disWeibull_small q0 q1 hβ y hy1]
    have c2 : β ≤ b1 := by
      by_contra hc
      have := hb1 β (not_le.1 hc).le
      linarith [disWeibull_large q0 q1 hβ x y hy1]
    have c3 : M ≤ q := by
      refine l1.trans ((disWeibull_le_tail q0 q1 hβ y).trans ?_)
      have : (1 : ℝ) ≤ (y : ℝ) ^ β := Real.one_le_rpow (by exact_mod_cast hy1) hβ.le
      calc q ^ ((y : ℝ) ^ β) ≤ q ^ (1 : ℝ) := Real.rpow_le_rpow_of_exponent_ge q0 q1.le this
        _ = q := Real.rpow_one q
    have c4 : q ≤ Real.exp (-L) := by
      rw [← Real.log_le_iff_le_exp q0]
      have hl : 0 < -Real.log q := by linarith [Real.log_neg q0 q1]
      have h2 := l1.trans (disWeibull_le_head q0 q1 hβ y)
      have h3 : ((y : ℝ) + 1) ^ β ≤ ((y : ℝ) + 1) ^ b1 := Real.rpow_le_rpow_of_exponent_le (by linarith) c2
      have h4 := h2.trans (mul_le_mul_of_nonneg_left h3 hl.le)
      have h5 : L ≤ -Real.log q := by
        rw [hL, div_le_iff₀ (by positivity)]
        nlinarith
      linarith
    exact ⟨⟨c3, c4⟩, c1, c2⟩
  have href := hout (1 / 2, 1) ⟨⟨by norm_num, by norm_num⟩, one_pos⟩ hM.le
  have hin : ∀ p ∈ Set.Icc M (Real.exp (-L)) ×ˢ Set.Icc b0 b1, (0 < p.1 ∧ p.1 < 1) ∧ 0 < p.2 := by
    rintro p ⟨h1, h2⟩
    exact ⟨⟨hM0.trans_le h1.1, h1.2.trans_lt (Real.exp_lt_one_iff.2 (by linarith))⟩, hb0.trans_le h2.1⟩
  obtain ⟨p, hp, hmax⟩ := (isCompact_Icc.prod isCompact_Icc).exists_isMaxOn (s := Set.Icc M (Real.exp (-L)) ×ˢ Set.Icc b0 b1)
    ⟨_, href⟩ ((dw_cont s).mono fun p hp => ⟨(hin p hp).1.1, (hin p hp).2⟩)
  refine ⟨p, hin p hp, fun p' hp' => ?_⟩
  rcases le_or_gt M (lik (discreteWeibullPmf p'.1 p'.2) s) with h | h
  · exact hmax (hout p' hp' h)
  · exact h.le.trans (hM.le.trans (hmax href))

end Verif.Ml
