import Verif.Model.ContMoments
import Verif.Spec.Modifier
import Mathlib.MeasureTheory.Integral.IntervalIntegral.TrapezoidalRule
import Mathlib.Tactic

/-!
# The trapezoidal rule on 1000 equally spaced points
-/

namespace Verif.ContMoments
open Verif MeasureTheory Verif.Spec Verif.Roulette

theorem trapezoid_range (g : ℕ → ℝ × ℝ) (n : ℕ) : trapezoid ((List.range (n + 1)).map g) =
    ∑ i ∈ Finset.range n, ((g (i + 1)).1 - (g i).1) * ((g i).2 + (g (i + 1)).2) / 2 := by
  unfold trapezoid
  have : List.zipWith (fun p q : ℝ × ℝ => (q.1 - p.1) * (p.2 + q.2) / 2) ((List.range (n + 1)).map g)
      ((List.range (n + 1)).map g).tail = (List.range n).map fun i =>
        ((g (i + 1)).1 - (g i).1) * ((g i).2 + (g (i + 1)).2) / 2 := by
    apply List.ext_getElem
    · simp
    · intro i h1 h2
      simp
  rw [this]
  clear this
  induction n with
  | zero => simp
  | succ n ih => rw [List.sum_range_succ, Finset.sum_range_succ, ih]

theorem gridIntegral_eq (f : ℝ → ℝ) (a b : ℝ) : gridIntegral f a b = trapezoidal_integral f 999 a b := by
  have hb : b = a + (999 : ℕ) * ((b - a) / 999) := by push_cast; ring
  unfold gridIntegral linspace
  rw [List.map_map, trapezoid_range]
  conv_rhs => rw [hb]
  rw [← sum_trapezoidal_integral_adjacent_intervals (by norm_num : 0 < 999)]
  apply Finset.sum_congr rfl
  intro i _
  rw [trapezoidal_integral_one]
  have e : ((1000 : ℕ) : ℝ) - 1 = 999 := by norm_num
  have e' : ¬ (1000 : ℕ) = 1 := by norm_num
  simp only [Function.comp_apply, if_neg e', e]
  push_cast
  ring

/-- the grid misses the integral of a smooth function by at most `(b - a)³ ζ / (12 · 999²)` -/
theorem grid_error (f : ℝ → ℝ) (a b : ℝ) (hab : a ≤ b) (hf : ContDiffOn ℝ 2 f (Set.Icc a b)) (z : ℝ)
    (hz : ∀ x ∈ Set.Icc a b, |iteratedDerivWithin 2 f (Set.Icc a b) x| ≤ z) :
    |gridIntegral f a b - ∫ x in a..b, f x| ≤ (b - a) ^ 3 * z / (12 * 999 ^ 2) := by
  have h0 : 0 ≤ z := (abs_nonneg _).trans (hz a ⟨le_rfl, hab⟩)
  rw [gridIntegral_eq]
  have := trapezoidal_error_le_of_c2 (f := f) (a := a) (b := b) (ζ := z) (N := 999)
    (by rwa [Set.uIcc_of_le hab]) (fun x => by
      rw [Set.uIcc_of_le hab]
      by_cases hx : x ∈ Set.Icc a b
      · exact hz x hx
      · rw [iteratedDerivWithin_succ, derivWithin_zero_of_notMem_closure (by rwa [closure_Icc]), abs_zero]
        exact h0) (by norm_num)
  rw [abs_of_nonneg (sub_nonneg.2 hab)] at this
  exact_mod_cast this

/-- integrals over an interval with respect to a law with a density -/
theorem density_integral (μ : Measure ℝ) (p : ℝ → ℝ) (hp : Measurable p) (hd : IsDensity volume μ p) (f : ℝ → ℝ)
    (a b : ℝ) (hab : a ≤ b) : ∫ y in Set.Icc a b, f y ∂μ = ∫ y in a..b, f y * p y := by
  rw [hd.2, restrict_withDensity measurableSet_Icc,
    integral_withDensity_eq_integral_toReal_smul (by fun_prop) (by simp),
    intervalIntegral.integral_of_le hab, integral_Icc_eq_integral_Ioc]
  apply integral_congr_ae
  filter_upwards with y
  simp only [ENNReal.toReal_ofReal (hd.1 y), smul_eq_mul, mul_comm]

theorem gridIntegral_add (f g : ℝ → ℝ) (a b : ℝ) :
    gridIntegral (fun x => f x + g x) a b = gridIntegral f a b + gridIntegral g a b := by
  simp only [gridIntegral_eq, trapezoidal_integral, Finset.sum_add_distrib]
  ring

theorem gridIntegral_smul (c : ℝ) (f : ℝ → ℝ) (a b : ℝ) :
    gridIntegral (fun x => c * f x) a b = c * gridIntegral f a b := by
  simp only [gridIntegral_eq, trapezoidal_integral, ← Finset.mul_sum]
  ring

end Verif.ContMoments
