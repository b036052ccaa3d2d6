import Verif.Spec.Modifier
import Mathlib.MeasureTheory.Integral.Bochner.SumMeasure
import Mathlib.MeasureTheory.Integral.Bochner.Set

/-!
# Sums over all the integers of an interval are integrals
-/

namespace Verif
open MeasureTheory Verif.Spec

theorem sum_eq_integral (μ : Measure ℝ) [IsFiniteMeasure μ] (p f : ℝ → ℝ) (hp : IsPmf μ p)
    (xs : List ℤ) (lo hi : ℤ) (hs : xs.Pairwise (· < ·)) (hx : ∀ x, x ∈ xs ↔ lo ≤ x ∧ x ≤ hi) :
    (xs.map fun (x : ℤ) => f (x : ℝ) * p (x : ℝ)).sum = ∫ y in Set.Icc (lo : ℝ) hi, f y ∂μ := by
  classical
  have hnd : xs.Nodup := hs.imp (fun h => ne_of_lt h)
  have hset : xs.toFinset = Finset.Icc lo hi := by ext x; simp [hx]
  let S : Finset ℝ := (Finset.Icc lo hi).image (fun k : ℤ => (k : ℝ))
  have hS : (Set.Icc (lo : ℝ) hi : Set ℝ) =ᵐ[μ] (S : Set ℝ) := by
    filter_upwards [hp.1] with y hy
    obtain ⟨k, rfl⟩ := hy
    apply propext
    change ((k : ℝ) ∈ Set.Icc (lo : ℝ) hi) ↔ ((k : ℝ) ∈ (S : Set ℝ))
    simp [S]
  have hfin : IntegrableOn f (S : Set ℝ) μ := IntegrableOn.finset
  rw [setIntegral_congr_set hS, setIntegral_finset S hfin, ← List.sum_toFinset _ hnd, hset,
    Finset.sum_image (by intro a _ b _ h; simpa using h)]
  apply Finset.sum_congr rfl
  intro k _
  rw [hp.2, smul_eq_mul, mul_comm]

theorem integrable_of_finset (μ : Measure ℝ) [IsFiniteMeasure μ] (S : Finset ℝ) (f : ℝ → ℝ)
    (h : ∀ᵐ (y : ℝ) ∂μ, y ∈ (S : Set ℝ)) : Integrable f μ := by
  rw [← Measure.restrict_eq_self_of_ae_mem h]
  exact IntegrableOn.finset

theorem integrable_of_integers (μ : Measure ℝ) [IsFiniteMeasure μ] (lo hi : ℤ) (f : ℝ → ℝ)
    (hz : ∀ᵐ (y : ℝ) ∂μ, ∃ k : ℤ, y = k) (h : ∀ᵐ (y : ℝ) ∂μ, (lo : ℝ) ≤ y ∧ y ≤ hi) : Integrable f μ := by
  classical
  refine integrable_of_finset μ ((Finset.Icc lo hi).image (fun k : ℤ => (k : ℝ))) f ?_
  filter_upwards [hz, h] with y hy hb
  obtain ⟨k, rfl⟩ := hy
  simpa using hb

end Verif
