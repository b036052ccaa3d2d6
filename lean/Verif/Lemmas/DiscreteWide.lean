import Verif.Spec.DiscreteWide
import Mathlib.Tactic

/-!
# Mass and entropy of the discrete uniform distribution
-/

namespace Verif.DiscreteWide
open MeasureTheory Verif.Spec

theorem mass_sum {f : ℤ → ℝ} (hf : ∀ k, 0 ≤ f k) (s : Finset ℤ) (hs : ∀ k, k ∉ s → f k = 0) (l u : ℤ) :
    intMass f l u = ∑ k ∈ s ∩ Finset.Icc l u, f k := by
  unfold intMass ofPmf Measure.real
  rw [Measure.sum_apply _ measurableSet_Icc, tsum_eq_sum (s := s ∩ Finset.Icc l u)]
  · rw [ENNReal.toReal_sum]
    · refine Finset.sum_congr rfl fun k hk => ?_
      obtain ⟨-, h2⟩ := Finset.mem_inter.1 hk
      rw [Finset.mem_Icc] at h2
      have : ((k : ℤ) : ℝ) ∈ Set.Icc (l : ℝ) u := ⟨by exact_mod_cast h2.1, by exact_mod_cast h2.2⟩
      simp [this, ENNReal.toReal_ofReal (hf k)]
    · intro k hk
      simp only [Measure.smul_apply, smul_eq_mul]
      exact ENNReal.mul_ne_top ENNReal.ofReal_ne_top (measure_ne_top _ _)
  · intro k hk
    rw [Finset.mem_inter, not_and_or] at hk
    rcases hk with hk | hk
    · simp [hs k hk]
    · have : ((k : ℤ) : ℝ) ∉ Set.Icc (l : ℝ) u := by
        rintro ⟨h1, h2⟩
        exact hk (Finset.mem_Icc.2 ⟨by exact_mod_cast h1, by exact_mod_cast h2⟩)
      simp [this]

/-- the number of values -/
theorem size_pos {a b : ℤ} (h : a ≤ b) : (0 : ℝ) < (b : ℝ) - a + 1 := by
  have : (a : ℝ) ≤ b := by exact_mod_cast h
  linarith

theorem du_nonneg {a b : ℤ} (h : a ≤ b) (k : ℤ) : 0 ≤ discreteUniformPmf a b k := by
  unfold discreteUniformPmf
  split_ifs
  · exact (one_div_pos.2 (size_pos h)).le
  · exact le_rfl

theorem du_mass {a b : ℤ} (h : a ≤ b) (l u : ℤ) :
    intMass (discreteUniformPmf a b) l u = ((Finset.Icc a b ∩ Finset.Icc l u).card : ℝ) / ((b : ℝ) - a + 1) := by
  rw [mass_sum (du_nonneg h) (Finset.Icc a b) (fun k hk => by
    rw [Finset.mem_Icc] at hk
    simp [discreteUniformPmf, hk])]
  rw [Finset.sum_congr rfl (g := fun _ => 1 / ((b : ℝ) - a + 1))]
  · rw [Finset.sum_const, nsmul_eq_mul, mul_one_div]
  · intro k hk
    have := (Finset.mem_Icc.1 (Finset.mem_inter.1 hk).1)
    simp [discreteUniformPmf, this]

theorem du_entropy {a b : ℤ} (h : a ≤ b) : entropyZ (discreteUniformPmf a b) = Real.log ((b : ℝ) - a + 1) := by
  unfold entropyZ
  rw [tsum_eq_sum (s := Finset.Icc a b)]
  · rw [Finset.sum_congr rfl (g := fun _ => 1 / ((b : ℝ) - a + 1) * Real.log ((b : ℝ) - a + 1))]
    · have hc : ((Finset.Icc a b).card : ℝ) = (b : ℝ) - a + 1 := by
        have : ((Finset.Icc a b).card : ℤ) = b - a + 1 := by rw [Int.card_Icc]; omega
        have h2 : (((Finset.Icc a b).card : ℤ) : ℝ) = ((b - a + 1 : ℤ) : ℝ) := by rw [this]
        push_cast at h2
        exact h2
      rw [Finset.sum_const, nsmul_eq_mul, hc]
      have := size_pos h
      field_simp
    · intro k hk
      rw [Finset.mem_Icc] at hk
      simp only [discreteUniformPmf, hk, and_self, if_true, Real.log_div one_ne_zero (size_pos h).ne', Real.log_one]
      ring
  · intro k hk
    rw [Finset.mem_Icc] at hk
    simp [discreteUniformPmf, hk]

end Verif.DiscreteWide
