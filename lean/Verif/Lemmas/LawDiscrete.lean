import Verif.Lemmas.LawBase
import Mathlib.Probability.Distributions.Poisson.Basic
import Mathlib.Analysis.SpecificLimits.Normed
import Mathlib.Algebra.BigOperators.Intervals

/-!
# Means and variances of the discrete laws
-/

namespace Verif.Law
open MeasureTheory Verif.Spec

theorem sum_cast {ι : Type} {f g : ι → ℝ} {c d : ℝ} (h : HasSum f c) (e : ∀ k, f k = g k) (e' : c = d) : HasSum g d := by
  obtain rfl : f = g := funext e
  exact e' ▸ h

theorem bernoulli {p : ℝ} (h0 : 0 ≤ p) (h1 : p ≤ 1) : HasMoments (ofPmf (bernoulliPmf p)) p (p * (1 - p)) := by
  have key : ∀ g : ℝ → ℝ, HasSum (fun k : ℤ => g k * bernoulliPmf p k) (g 0 * (1 - p) + g 1 * p) := by
    intro g
    have := hasSum_sum_of_ne_finset_zero (L := .unconditional ℤ) (f := fun k : ℤ => g k * bernoulliPmf p k) (s := {0, 1}) (by
      intro k hk
      simp only [Finset.mem_insert, Finset.mem_singleton, not_or] at hk
      simp [bernoulliPmf, hk.1, hk.2])
    simpa [bernoulliPmf] using this
  have := pmf_moments (f := bernoulliPmf p) (m := p) (q := p) (fun k => ?_) (by simpa using key fun _ => 1)
    (by simpa using key fun x => x)
    (sum_cast (key fun x => x ^ 2) (fun _ => rfl) (by ring))
  · rwa [show p * (1 - p) = p - p ^ 2 by ring]
  · unfold bernoulliPmf
    split_ifs <;> linarith

theorem poisson {m : ℝ} (hm : 0 < m) : HasMoments (ofPmf fun k => if k < 0 then 0 else poissonPmf m k.toNat) m m := by
  have s0 : HasSum (poissonPmf m) 1 := by
    have := ProbabilityTheory.hasSum_one_poissonMeasure ⟨m, hm.le⟩
    exact sum_cast this (fun k => rfl) rfl
  have step : ∀ k : ℕ, ((k + 1 : ℕ) : ℝ) * poissonPmf m (k + 1) = m * poissonPmf m k := by
    intro k
    have : ((k + 1).factorial : ℝ) = (k + 1) * k.factorial := by rw [Nat.factorial_succ]; push_cast; ring
    have hf : (k.factorial : ℝ) ≠ 0 := by positivity
    have hk : (k : ℝ) + 1 ≠ 0 := by positivity
    simp only [poissonPmf, this]
    push_cast
    field_simp
    ring
  have s1 : HasSum (fun k : ℕ => (k : ℝ) * poissonPmf m k) m := by
    rw [← hasSum_nat_add_iff' 1]
    simp only [step, Finset.sum_range_one, Nat.cast_zero, zero_mul, sub_zero]
    simpa using s0.mul_left m
  have s2 : HasSum (fun k : ℕ => (k : ℝ) ^ 2 * poissonPmf m k) (m ^ 2 + m) := by
    rw [← hasSum_nat_add_iff' 1]
    have e : (fun k : ℕ => ((k + 1 : ℕ) : ℝ) ^ 2 * poissonPmf m (k + 1)) =
        fun k : ℕ => m * ((k : ℝ) * poissonPmf m k) + m * poissonPmf m k := by
      funext k
      rw [sq, mul_assoc, step]
      push_cast; ring
    rw [e]
    refine sum_cast ((s1.mul_left m).add (s0.mul_left m)) (fun _ => rfl) ?_
    simp only [Finset.sum_range_one, Nat.cast_zero]; ring
  have := nat_moments (f := poissonPmf m) (fun k => by unfold poissonPmf; positivity) s0 s1 s2
  rwa [show m ^ 2 + m - m ^ 2 = m by ring] at this

theorem geometric {p : ℝ} (h0 : 0 < p) (h1 : p ≤ 1) :
    HasMoments (ofPmf fun k => if k < 0 then 0 else geometricPmf p k.toNat) (1 / p) ((1 - p) / p ^ 2) := by
  have hr : ‖1 - p‖ < 1 := by rw [Real.norm_eq_abs, abs_lt]; constructor <;> linarith
  have g0 : HasSum (fun n : ℕ => (1 - p) ^ n) (1 / p) := by
    have := hasSum_geometric_of_norm_lt_one hr
    simpa using this
  have g1 : HasSum (fun n : ℕ => (n : ℝ) * (1 - p) ^ n) ((1 - p) / p ^ 2) := by
    have := hasSum_coe_mul_geometric_of_norm_lt_one hr
    simpa using this
  have g2 : HasSum (fun n : ℕ => ((n + 2).choose 2 : ℝ) * (1 - p) ^ n) (1 / p ^ 3) := by
    have := hasSum_choose_mul_geometric_of_norm_lt_one 2 hr
    simpa using this
  have pm : ∀ k : ℕ, geometricPmf p (k + 1) = p * (1 - p) ^ k := fun k => by simp [geometricPmf]
  have z : geometricPmf p 0 = 0 := by simp [geometricPmf]
  have s0 : HasSum (geometricPmf p) 1 := by
    rw [← hasSum_nat_add_iff' 1]
    simp only [pm, Finset.sum_range_one, z, sub_zero]
    have := g0.mul_left p
    rwa [mul_one_div_cancel h0.ne'] at this
  have s1 : HasSum (fun k : ℕ => (k : ℝ) * geometricPmf p k) (1 / p) := by
    rw [← hasSum_nat_add_iff' 1]
    simp only [pm, Finset.sum_range_one, z, Nat.cast_zero, zero_mul, sub_zero]
    refine sum_cast ((g1.mul_left p).add (g0.mul_left p)) (fun k => ?_) ?_
    · push_cast; ring
    · field_simp; ring
  have s2 : HasSum (fun k : ℕ => (k : ℝ) ^ 2 * geometricPmf p k) ((2 - p) / p ^ 2) := by
    rw [← hasSum_nat_add_iff' 1]
    simp only [pm, Finset.sum_range_one, z, mul_zero, sub_zero]
    refine sum_cast (((g2.mul_left (2 * p)).add (g1.mul_left (-p))).add (g0.mul_left (-p))) (fun k => ?_) ?_
    · have : ((k + 2).choose 2 : ℝ) = (k + 2) * (k + 1) / 2 := by
        rw [Nat.cast_choose_two]; push_cast; ring
      rw [this]; push_cast; ring
    · field_simp; ring
  have := nat_moments (f := geometricPmf p) (fun k => ?_) s0 s1 s2
  · rwa [show (2 - p) / p ^ 2 - (1 / p) ^ 2 = (1 - p) / p ^ 2 by field_simp; ring] at this
  · unfold geometricPmf
    split_ifs
    · exact le_rfl
    · have : 0 ≤ 1 - p := by linarith
      positivity

private theorem sum_shift (a : ℤ) (n : ℕ) (g : ℤ → ℝ) :
    ∑ k ∈ Finset.Icc a (a + n), g k = ∑ i ∈ Finset.range (n + 1), g (a + i) := by
  induction n with
  | zero => simp
  | succ n ih =>
    rw [Finset.sum_range_succ, ← ih]
    have : Finset.Icc a (a + (n + 1 : ℕ)) = insert (a + (n + 1 : ℕ)) (Finset.Icc a (a + n)) := by
      ext k; simp only [Finset.mem_Icc, Finset.mem_insert]; push_cast; omega
    rw [this, Finset.sum_insert (by simp), add_comm]

theorem discreteUniform (a b : ℤ) (h : a ≤ b) :
    HasMoments (ofPmf (discreteUniformPmf a b)) (((a : ℝ) + b) / 2) ((((b : ℝ) - a + 1) ^ 2 - 1) / 12) := by
  obtain ⟨n, rfl⟩ : ∃ n : ℕ, b = a + n := ⟨(b - a).toNat, by omega⟩
  have hn : (0 : ℝ) < (n : ℝ) + 1 := by positivity
  have key : ∀ g : ℝ → ℝ, HasSum (fun k : ℤ => g k * discreteUniformPmf a (a + n) k)
      ((∑ i ∈ Finset.range (n + 1), g ((a : ℝ) + i)) / (n + 1)) := by
    intro g
    have := hasSum_sum_of_ne_finset_zero (L := .unconditional ℤ) (f := fun k : ℤ => g k * discreteUniformPmf a (a + n) k)
      (s := Finset.Icc a (a + n)) (by
      intro k hk
      simp only [Finset.mem_Icc] at hk
      simp [discreteUniformPmf, hk])
    refine sum_cast this (fun _ => rfl) ?_
    rw [sum_shift, Finset.sum_div]
    refine Finset.sum_congr rfl fun i hi => ?_
    symm
    have hi' := Finset.mem_range.mp hi
    have : a ≤ a + (i : ℤ) ∧ a + (i : ℤ) ≤ a + n := by omega
    simp only [discreteUniformPmf, this, and_self, if_true]
    push_cast
    rw [show (a : ℝ) + n - a + 1 = n + 1 by ring]
    ring
  have e0 : ∀ n : ℕ, ∑ _i ∈ Finset.range (n + 1), (1 : ℝ) = n + 1 := fun n => by simp
  have e1 : ∀ n : ℕ, ∑ i ∈ Finset.range (n + 1), ((a : ℝ) + i) = (n + 1) * (a + n / 2) := by
    intro n
    induction n with
    | zero => simp
    | succ n ih => rw [Finset.sum_range_succ, ih]; push_cast; ring
  have e2 : ∀ n : ℕ, ∑ i ∈ Finset.range (n + 1), ((a : ℝ) + i) ^ 2 = (n + 1) * (a ^ 2 + a * n + n * (2 * n + 1) / 6) := by
    intro n
    induction n with
    | zero => simp
    | succ n ih => rw [Finset.sum_range_succ, ih]; push_cast; ring
  have k0 := key fun _ => 1
  have k1 := key fun x => x
  have k2 := key fun x => x ^ 2
  rw [e0, div_self hn.ne'] at k0
  rw [e1, mul_div_cancel_left₀ _ hn.ne'] at k1
  rw [e2, mul_div_cancel_left₀ _ hn.ne'] at k2
  have := pmf_moments (f := discreteUniformPmf a (a + n)) (fun k => ?_) (by simpa using k0) k1 k2
  · convert this using 1
    · push_cast; ring
    · push_cast; ring
  · unfold discreteUniformPmf
    split_ifs
    · push_cast
      rw [show (a : ℝ) + n - a + 1 = n + 1 by ring]; positivity
    · exact le_rfl

end Verif.Law
