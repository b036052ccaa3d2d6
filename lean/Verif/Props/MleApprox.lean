import Verif.Props.Mle

/-!
# C60: fits in closed form that are not maximum-likelihood fits
-/

set_option linter.unusedSimpArgs false

namespace Verif.Props
open Verif Verif.Mle Verif.Spec

/-- negation, for every sample with two different values: the fitted Triangular gives the sample likelihood
zero, while another Triangular gives it a positive one. -/
theorem triangular_fit_worst (l : List ℝ) (hl : ∃ x ∈ l, ∃ y ∈ l, x < y) :
    ∃ a c b, triangularFit l = .ok (a, c, b) ∧ lik (triangularPdf a c b) l = 0 ∧
      0 < lik (triangularPdf (a - 1) a (b + 1)) l := by
  obtain ⟨a, b, hfit, hlt, hin, -⟩ := uniform_fit_optimal_partial l hl
  obtain ⟨x, hx, -⟩ := hl
  have hne : l ≠ [] := List.ne_nil_of_mem hx
  unfold uniformFit at hfit
  cases h1 : npMin l with
  | error e => simp [h1] at hfit
  | ok a' =>
    cases h2 : npMax l with
    | error e => simp [h1, h2] at hfit
    | ok b' =>
      simp only [h1, h2, Except.ok_bind', Except.ok.injEq, Prod.mk.injEq] at hfit
      obtain ⟨rfl, rfl⟩ := hfit
      have m1 := (npMin_spec l a' h1).1
      have m2 := (npMax_spec l b' h2).1
      refine ⟨a', l.sum / l.length * 3 - a' - b', b', ?_, ?_, ?_⟩
      · simp [triangularFit, h1, h2, npMean, hne]
      · set c := l.sum / l.length * 3 - a' - b'
        by_cases hc : a' < c
        · exact lik_zero _ l a' m1 (by simp [triangularPdf, hc])
        · refine lik_zero _ l b' m2 ?_
          push Not at hc
          have e1 : ¬ b' < a' := by linarith
          have e2 : ¬ b' < c := by linarith
          have e3 : b' ≠ c := by intro h; linarith
          simp [triangularPdf, e1, e2, e3]
      · apply List.prod_pos
        intro y hy
        obtain ⟨z, hz, rfl⟩ := List.mem_map.1 hy
        obtain ⟨h1, h2⟩ := hin z hz
        have e1 : ¬ z < a' - 1 := by linarith
        have e2 : ¬ z < a' := by linarith
        have e3 : z ≤ b' + 1 := by linarith
        simp only [triangularPdf, e1, e2, e3, if_false, if_true]
        split_ifs
        · apply div_pos <;> linarith
        · apply div_pos
          · linarith
          · apply mul_pos <;> linarith

/-- negation: the fitted mode can lie outside the fitted range -/
theorem triangular_fit_mode_outside :
    triangularFit [0, 0, 0, 1] = .ok (0, -1 / 4, 1) := by
  have h : npMean [0, 0, 0, 1] = some (1 / 4) := by rw [npMean, if_neg (by simp)]; norm_num
  norm_num [triangularFit, npMin, npMax, h]

/-- What holds: the formula for the mean, `(lower + c + upper) / 3`, gives the mean of the sample, and the
sample is inside the fitted range.  Missing: positive likelihood and an admissible mode. -/
theorem triangular_fit_mean_partial (l : List ℝ) (a c b : ℝ) (h : triangularFit l = .ok (a, c, b)) :
    (a + c + b) / 3 = popMean l ∧ ∀ x ∈ l, a ≤ x ∧ x ≤ b := by
  unfold triangularFit at h
  cases h1 : npMin l with
  | error e => simp [h1] at h
  | ok a' =>
    cases h2 : npMax l with
    | error e => simp [h1, h2] at h
    | ok b' =>
      have hne : l ≠ [] := by rintro rfl; simp [npMin] at h1
      simp only [h1, h2, Except.ok_bind', npMean, if_neg hne, Except.ok.injEq, Prod.mk.injEq] at h
      obtain ⟨rfl, rfl, rfl⟩ := h
      refine ⟨by unfold popMean; ring, fun x hx => ⟨(npMin_spec l _ h1).2 x hx, (npMax_spec l _ h2).2 x hx⟩⟩

/-- negation: the fitted number of trials can be smaller than an observed count: the fitted Binomial gives
the sample probability zero -/
theorem binomial_fit_impossible :
    binomialFit [4, 5, 5, 6] = .ok (some (5, 1)) ∧ lik (binomialPmf 5 1) [4, 5, 5, 6] = 0 ∧
      0 < lik (binomialPmf 6 (1 / 2)) [4, 5, 5, 6] := by
  refine ⟨?_, ?_, ?_⟩
  · have hms : meanAndStd [4, 5, 5, 6] = .ok (5, √(1 / 2)) := by
      rw [mean_and_std_value _ (by simp)]
      norm_num [popMean, popVar]
    have hmax : npMax [4, 5, 5, 6] = .ok 6 := by norm_num [npMax]
    have h6 : (6 : ℝ) ^ (3 / 2 : ℝ) = 6 * √6 := by
      rw [show (3 / 2 : ℝ) = 1 + 1 / 2 by norm_num, Real.rpow_add (by norm_num), Real.rpow_one, Real.sqrt_eq_rpow]
    have hd : (5 : ℝ) ^ (1 / 2 : ℝ) * (6 - 5) ^ (1 / 2 : ℝ) = √5 := by
      rw [Real.sqrt_eq_rpow]; norm_num
    have hd0 : √(5 : ℝ) ≠ 0 := by positivity
    have hc : ⌈(6 : ℝ) ^ (3 / 2 : ℝ) * √(1 / 2) / √5⌉ = 5 := by
      have e : (6 : ℝ) ^ (3 / 2 : ℝ) * √(1 / 2) / √5 = √(108 / 5) := by
        rw [h6, mul_assoc, ← Real.sqrt_mul (by norm_num), mul_div_assoc, ← Real.sqrt_div (by norm_num)]
        rw [show (6 : ℝ) = √36 by rw [show (36 : ℝ) = 6 ^ 2 by norm_num]; simp]
        rw [← Real.sqrt_mul (by norm_num)]
        norm_num
      rw [e, Int.ceil_eq_iff]
      constructor
      · have : (4 : ℝ) < √(108 / 5) := by
          rw [Real.lt_sqrt (by norm_num)]; norm_num
        push_cast; linarith
      · have : √(108 / 5) ≤ (5 : ℝ) := by
          rw [Real.sqrt_le_left (by norm_num)]; norm_num
        exact_mod_cast this
    simp only [binomialFit, hms, hmax, Except.ok_bind', hd, hd0, if_false, hc]
    norm_num
  · simp [lik, binomialPmf]
  · norm_num [lik, binomialPmf, Nat.choose]

end Verif.Props
