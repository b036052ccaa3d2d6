import Verif.Lemmas.LawBase
import Mathlib.Analysis.SpecialFunctions.ImproperIntegrals

/-!
# Densities with tails too heavy for a variance (C124)
-/

namespace Verif.Lemmas.NoVar
open MeasureTheory Set Verif.Spec Verif.Law

theorem heavy {f : ℝ → ℝ} (hm : Measurable f) (h0 : ∀ x, 0 ≤ f x) {T c : ℝ} (hc : 0 < c)
    (h : ∀ x, T < x → c * x ^ (-1 : ℝ) ≤ x ^ 2 * f x) (m v : ℝ) : ¬ HasMoments (ofPdf f) m v := by
  intro H
  have hi := (ofPdf_integrable hm h0 _).1 H.int2
  set T' := max (max T 1) (2 * |m|) with hT
  have h1 : T ≤ T' := (le_max_left _ _).trans (le_max_left _ _)
  have h2 : 1 ≤ T' := (le_max_right _ _).trans (le_max_left _ _)
  have h3 : 2 * |m| ≤ T' := le_max_right _ _
  have hpos : 0 < T' := by linarith
  have key : IntegrableOn (fun x : ℝ => x ^ (-1 : ℝ)) (Ioi T') := by
    have hd : IntegrableOn (fun x => 4 / c * ((x - m) ^ 2 * f x)) (Ioi T') := (hi.const_mul (4 / c)).integrableOn
    refine hd.mono' ?_ ?_
    · exact (Measurable.aestronglyMeasurable (by fun_prop))
    · refine (ae_restrict_iff' measurableSet_Ioi).2 (Filter.Eventually.of_forall fun x hx => ?_)
      have hx' : T' < x := hx
      have hx0 : 0 < x := by linarith
      have a1 := h x (by linarith)
      have a2 : x ^ 2 ≤ 4 * (x - m) ^ 2 := by
        have b1 : m ≤ |m| := le_abs_self m
        have b2 : x / 2 ≤ x - m := by linarith
        nlinarith
      have a3 := mul_le_mul_of_nonneg_right a2 (h0 x)
      rw [Real.norm_of_nonneg (by positivity)]
      rw [div_mul_eq_mul_div, le_div_iff₀ hc]
      calc x ^ (-1 : ℝ) * c = c * x ^ (-1 : ℝ) := by ring
        _ ≤ x ^ 2 * f x := a1
        _ ≤ 4 * (x - m) ^ 2 * f x := a3
        _ = _ := by ring
  exact absurd ((integrableOn_Ioi_rpow_iff hpos).1 key) (by norm_num)

theorem power_tail {a x : ℝ} (ha : a ≤ 2) (hx : 1 < x) : x ^ (-1 : ℝ) ≤ x ^ 2 * x ^ (-a - 1) := by
  have hx0 : 0 < x := by linarith
  rw [← Real.rpow_natCast x 2, ← Real.rpow_add hx0]
  exact Real.rpow_le_rpow_of_exponent_le hx.le (by push_cast; linarith)

theorem pareto_heavy {a m : ℝ} (ha : 0 < a) (hm : 0 < m) (h2 : a ≤ 2) (mu v : ℝ) :
    ¬ HasMoments (ofPdf (paretoPdf a m)) mu v := by
  have hc : 0 < a * m ^ a := by positivity
  refine heavy (T := max m 1) (c := a * m ^ a) ?_ ?_ hc ?_ mu v
  · unfold paretoPdf
    exact Measurable.ite measurableSet_Ici (by fun_prop) measurable_const
  · intro x
    unfold paretoPdf
    split_ifs with h
    · have : 0 < x := by linarith
      positivity
    · exact le_rfl
  · intro x hx
    have i1 : m < x := (le_max_left _ _).trans_lt hx
    have i2 : 1 < x := (le_max_right _ _).trans_lt hx
    have i0 : 0 < x := by linarith
    unfold paretoPdf
    rw [if_pos i1.le, div_eq_mul_inv, ← Real.rpow_neg i0.le, show -(a + 1) = -a - 1 by ring]
    calc a * m ^ a * x ^ (-1 : ℝ) ≤ a * m ^ a * (x ^ 2 * x ^ (-a - 1)) := by
          gcongr
          exact power_tail h2 i2
      _ = _ := by ring

theorem inverseGamma_heavy {a b : ℝ} (ha : 0 < a) (hb : 0 < b) (h2 : a ≤ 2) (mu v : ℝ) :
    ¬ HasMoments (ofPdf (inverseGammaPdf a b)) mu v := by
  have hg := Real.Gamma_pos_of_pos ha
  have hK : 0 < b ^ a / Real.Gamma a := by positivity
  refine heavy (T := 1) (c := b ^ a / Real.Gamma a * Real.exp (-b)) ?_ ?_ (by positivity) ?_ mu v
  · unfold inverseGammaPdf
    exact Measurable.ite measurableSet_Ioi (by fun_prop) measurable_const
  · intro x
    unfold inverseGammaPdf
    split_ifs with h <;> positivity
  · intro x hx
    have i0 : 0 < x := by linarith
    unfold inverseGammaPdf
    rw [if_pos i0]
    have e : Real.exp (-b) ≤ Real.exp (-b / x) := by
      rw [Real.exp_le_exp, neg_div, neg_le_neg_iff, div_le_iff₀ i0]
      nlinarith
    calc b ^ a / Real.Gamma a * Real.exp (-b) * x ^ (-1 : ℝ)
        ≤ b ^ a / Real.Gamma a * Real.exp (-b / x) * (x ^ 2 * x ^ (-a - 1)) := by
          gcongr
          exact power_tail h2 hx
      _ = _ := by ring

theorem student_heavy {n s : ℝ} (hn : 0 < n) (m : ℝ) (hs : 0 < s) (h2 : n ≤ 2) (mu v : ℝ) :
    ¬ HasMoments (ofPdf (studentPdf n m s)) mu v := by
  have hg1 := Real.Gamma_pos_of_pos (show 0 < (n + 1) / 2 by linarith)
  have hg2 := Real.Gamma_pos_of_pos (show 0 < n / 2 by linarith)
  have hp := Real.pi_pos
  set K := Real.Gamma ((n + 1) / 2) / (√(n * Real.pi) * Real.Gamma (n / 2) * s) with hKd
  have hK : 0 < K := by positivity
  set D := 1 + ((1 + |m|) / s) ^ 2 / n with hD
  have hD0 : 0 < D := by positivity
  have hbase : ∀ x, 0 < 1 + ((x - m) / s) ^ 2 / n := fun x => by positivity
  refine heavy (T := 1) (c := K * D ^ (-(n + 1) / 2)) ?_ ?_ (by positivity) ?_ mu v
  · unfold studentPdf
    fun_prop
  · intro x
    unfold studentPdf
    have := hbase x
    positivity
  · intro x hx
    have i0 : 0 < x := by linarith
    unfold studentPdf
    rw [← hKd]
    have e : 1 + ((x - m) / s) ^ 2 / n ≤ D * x ^ 2 := by
      have j : |x - m| ≤ (1 + |m|) * x := by
        calc |x - m| ≤ |x| + |m| := abs_sub _ _
          _ = x + |m| := by rw [abs_of_pos i0]
          _ ≤ (1 + |m|) * x := by nlinarith [abs_nonneg m]
      have j2 : (x - m) ^ 2 ≤ (1 + |m|) ^ 2 * x ^ 2 := by
        rw [← sq_abs, ← mul_pow]
        gcongr
      have j3 : ((x - m) / s) ^ 2 / n ≤ ((1 + |m|) / s) ^ 2 / n * x ^ 2 := by
        rw [div_pow, div_pow, div_mul_eq_mul_div, div_mul_eq_mul_div]
        gcongr
      rw [hD]
      nlinarith
    have e2 : (D * x ^ 2) ^ (-(n + 1) / 2) = D ^ (-(n + 1) / 2) * x ^ (-n - 1) := by
      rw [Real.mul_rpow hD0.le (by positivity), ← Real.rpow_natCast x 2, ← Real.rpow_mul i0.le]
      congr 2
      push_cast; ring
    have e3 : (D * x ^ 2) ^ (-(n + 1) / 2) ≤ (1 + ((x - m) / s) ^ 2 / n) ^ (-(n + 1) / 2) :=
      Real.rpow_le_rpow_of_nonpos (hbase x) e (by linarith)
    calc K * D ^ (-(n + 1) / 2) * x ^ (-1 : ℝ) ≤ K * D ^ (-(n + 1) / 2) * (x ^ 2 * x ^ (-n - 1)) := by
          gcongr
          exact power_tail h2 hx
      _ = x ^ 2 * (K * (D ^ (-(n + 1) / 2) * x ^ (-n - 1))) := by ring
      _ ≤ _ := by
          rw [← e2]
          gcongr

/-- a law with a density is not concentrated at a point -/
theorem var_positive {f : ℝ → ℝ} {m v : ℝ} (H : HasMoments (ofPdf f) m v) : 0 < v := by
  have h0 : 0 ≤ v := by rw [← H.var]; exact integral_nonneg fun x => sq_nonneg _
  refine lt_of_le_of_ne h0 fun hv => ?_
  have h1 : ∫ x, (x - m) ^ 2 ∂ofPdf f = 0 := H.var.trans hv.symm
  rw [integral_eq_zero_iff_of_nonneg (fun x => sq_nonneg _) H.int2] at h1
  have h2 : ∀ᵐ x ∂ofPdf f, x = m := by
    filter_upwards [h1] with x hx
    have : (x - m) ^ 2 = 0 := hx
    have := pow_eq_zero_iff two_ne_zero |>.1 this
    linarith
  have h3 : ofPdf f {m} = 0 := withDensity_absolutelyContinuous _ _ (by simp)
  have h4 : ofPdf f {m}ᶜ = 0 := h2
  have := H.prob
  have h5 : ofPdf f univ ≤ 0 := by
    rw [← union_compl_self {m}]
    refine (measure_union_le _ _).trans ?_
    rw [h3, h4, add_zero]
  rw [measure_univ] at h5
  exact absurd h5 (by simp)

end Verif.Lemmas.NoVar
