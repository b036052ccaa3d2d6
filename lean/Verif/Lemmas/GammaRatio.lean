import Mathlib.Probability.Distributions.Beta
import Mathlib.Probability.Distributions.Gamma
import Mathlib.Probability.Independence.Basic
import Mathlib.MeasureTheory.Measure.Lebesgue.Basic
import Mathlib.MeasureTheory.Measure.WithDensity
import Mathlib.MeasureTheory.Group.LIntegral
import Mathlib.Tactic

/-!
# Ratios and sums of independent gamma variables
-/

namespace Verif.GammaRatio
open MeasureTheory ProbabilityTheory ENNReal

theorem measurable_gammaPDF (a r : ℝ) : Measurable (gammaPDF a r) :=
  (measurable_gammaPDFReal a r).ennreal_ofReal

theorem measurable_betaPDF (a b : ℝ) : Measurable (betaPDF a b) :=
  (measurable_betaPDFReal a b).ennreal_ofReal

theorem lintegral_scale (f : ℝ → ℝ≥0∞) (hf : Measurable f) {s : ℝ} (hs : 0 < s) :
    ∫⁻ x, f x = ENNReal.ofReal s * ∫⁻ u, f (s * u) := by
  have h := Real.smul_map_volume_mul_left hs.ne'
  rw [abs_of_pos hs] at h
  conv_lhs => rw [← h]
  rw [lintegral_smul_measure, lintegral_map hf (by fun_prop)]
  rfl

/-- the densities, away from the edges -/
theorem density_product {a b s u : ℝ} (ha : 0 < a) (hb : 0 < b) (hs : 0 < s) (h0 : u ≠ 0) (h1 : u ≠ 1) :
    ENNReal.ofReal s * (gammaPDF a 1 (s * u) * gammaPDF b 1 (s - s * u)) =
      betaPDF a b u * gammaPDF (a + b) 1 s := by
  have hGa := Real.Gamma_pos_of_pos ha
  have hGb := Real.Gamma_pos_of_pos hb
  have hGab := Real.Gamma_pos_of_pos (add_pos ha hb)
  rcases lt_or_gt_of_ne h0 with hu | hu
  · rw [gammaPDF_of_neg (by nlinarith), betaPDF_eq_zero_of_nonpos hu.le]; simp
  rcases lt_or_gt_of_ne h1 with hu1 | hu1
  · rw [gammaPDF_of_nonneg (by positivity), gammaPDF_of_nonneg (by nlinarith), gammaPDF_of_nonneg hs.le,
      betaPDF_of_pos_lt_one hu hu1]
    have h1u : 0 < 1 - u := by linarith
    have hB := beta_pos ha hb
    rw [← ENNReal.ofReal_mul (by positivity), ← ENNReal.ofReal_mul hs.le, ← ENNReal.ofReal_mul (by positivity)]
    congr 1
    have e1 : s - s * u = s * (1 - u) := by ring
    rw [e1, Real.mul_rpow hs.le hu.le, Real.mul_rpow hs.le h1u.le]
    have e2 : s ^ (a + b - 1) = s * (s ^ (a - 1) * s ^ (b - 1)) := by
      rw [← Real.rpow_add hs]
      nth_rewrite 2 [← Real.rpow_one s]
      rw [← Real.rpow_add hs]; congr 1; ring
    have e3 : Real.exp (-(1 * s)) = Real.exp (-(1 * (s * u))) * Real.exp (-(1 * (s * (1 - u)))) := by
      rw [← Real.exp_add]; congr 1; ring
    rw [e2, e3, beta, Real.one_rpow, Real.one_rpow, Real.one_rpow]
    field_simp
  · rw [gammaPDF_of_neg (x := s - s * u) (by nlinarith), betaPDF_eq_zero_of_one_le hu1.le]; simp

theorem gamma_ratio_lintegral {a b : ℝ} (ha : 0 < a) (hb : 0 < b) (f : ℝ × ℝ → ℝ≥0∞) (hf : Measurable f) :
    ∫⁻ x, gammaPDF a 1 x * ∫⁻ y, gammaPDF b 1 y * f (x / (x + y), x + y) =
      ∫⁻ u, betaPDF a b u * ∫⁻ s, gammaPDF (a + b) 1 s * f (u, s) := by
  have mga := measurable_gammaPDF a 1
  have mgb := measurable_gammaPDF b 1
  have mgab := measurable_gammaPDF (a + b) 1
  have mb := measurable_betaPDF a b
  have step1 : ∀ x, ∫⁻ y, gammaPDF b 1 y * f (x / (x + y), x + y) =
      ∫⁻ s, gammaPDF b 1 (s - x) * f (x / s, s) := by
    intro x
    rw [← lintegral_sub_right_eq_self (fun y => gammaPDF b 1 y * f (x / (x + y), x + y)) x]
    simp
  simp only [step1]
  have step2 : ∀ x, gammaPDF a 1 x * ∫⁻ s, gammaPDF b 1 (s - x) * f (x / s, s) =
      ∫⁻ s, gammaPDF a 1 x * (gammaPDF b 1 (s - x) * f (x / s, s)) := by
    intro x
    rw [lintegral_const_mul]
    fun_prop
  simp only [step2]
  rw [lintegral_lintegral_swap (by fun_prop)]
  have step3 : ∀ u, betaPDF a b u * ∫⁻ s, gammaPDF (a + b) 1 s * f (u, s) =
      ∫⁻ s, betaPDF a b u * (gammaPDF (a + b) 1 s * f (u, s)) := by
    intro u
    rw [lintegral_const_mul]
    fun_prop
  simp only [step3]
  have step4 := lintegral_lintegral_swap (μ := volume) (ν := volume)
    (f := fun u s => betaPDF a b u * (gammaPDF (a + b) 1 s * f (u, s))) (by fun_prop)
  rw [step4]
  have nz : ∀ c : ℝ, ∀ᵐ s : ℝ, s ≠ c := fun c => by simp [ae_iff, measure_singleton]
  refine lintegral_congr_ae ?_
  filter_upwards [nz 0] with s hs
  rcases lt_or_gt_of_ne hs with hs | hs
  · rw [gammaPDF_of_neg hs]
    simp only [zero_mul, mul_zero, lintegral_zero]
    rw [lintegral_eq_zero_iff (by fun_prop)]
    filter_upwards with x
    by_cases hx : x < 0
    · simp [gammaPDF_of_neg hx]
    · simp [gammaPDF_of_neg (x := s - x) (a := b) (r := 1) (by linarith)]
  · rw [lintegral_scale _ (by fun_prop) hs, ← lintegral_const_mul _ (by fun_prop)]
    refine lintegral_congr_ae ?_
    filter_upwards [nz 0, nz 1] with u h0 h1
    have e : s * u / s = u := by field_simp
    rw [e, ← mul_assoc (betaPDF a b u), ← density_product ha hb hs h0 h1]
    ring

/-- for independent gamma variables the ratio of the first to the sum and the sum are independent, with laws Beta and
Gamma -/
theorem gamma_ratio {a b : ℝ} (ha : 0 < a) (hb : 0 < b) :
    ((gammaMeasure a 1).prod (gammaMeasure b 1)).map (fun p => (p.1 / (p.1 + p.2), p.1 + p.2)) =
      (betaMeasure a b).prod (gammaMeasure (a + b) 1) := by
  have := isProbabilityMeasure_gammaMeasure ha one_pos
  have := isProbabilityMeasure_gammaMeasure hb one_pos
  have := isProbabilityMeasure_gammaMeasure (add_pos ha hb) one_pos
  have := isProbabilityMeasureBeta ha hb
  have mga := measurable_gammaPDF a 1
  have mgb := measurable_gammaPDF b 1
  have mgab := measurable_gammaPDF (a + b) 1
  have mb := measurable_betaPDF a b
  refine Measure.ext_of_lintegral _ fun f hf => ?_
  rw [lintegral_map hf (by fun_prop), lintegral_prod _ (by fun_prop), lintegral_prod _ (by fun_prop)]
  have := gamma_ratio_lintegral ha hb f hf
  unfold gammaMeasure betaMeasure
  rw [lintegral_withDensity_eq_lintegral_mul _ mga
      (Measurable.lintegral_prod_right' (f := fun p : ℝ × ℝ => f (p.1 / (p.1 + p.2), p.1 + p.2)) (by fun_prop)),
    lintegral_withDensity_eq_lintegral_mul _ mb (Measurable.lintegral_prod_right' hf)]
  simp only [Pi.mul_apply]
  have e1 : ∀ x, ∫⁻ y, f (x / (x + y), x + y) ∂(volume.withDensity (gammaPDF b 1)) =
      ∫⁻ y, gammaPDF b 1 y * f (x / (x + y), x + y) := fun x => by
    rw [lintegral_withDensity_eq_lintegral_mul _ mgb (by fun_prop)]; rfl
  have e2 : ∀ x, ∫⁻ y, f (x, y) ∂(volume.withDensity (gammaPDF (a + b) 1)) =
      ∫⁻ y, gammaPDF (a + b) 1 y * f (x, y) := fun x => by
    rw [lintegral_withDensity_eq_lintegral_mul _ mgab (by fun_prop)]; rfl
  simp only [e1, e2]
  exact this

variable {Ω : Type*} [MeasurableSpace Ω] {P : Measure Ω}

theorem sum_law {a b : ℝ} (ha : 0 < a) (hb : 0 < b) {X Y : Ω → ℝ} (hX : Measurable X) (hY : Measurable Y)
    [IsProbabilityMeasure P] (h : IndepFun X Y P) (lX : P.map X = gammaMeasure a 1)
    (lY : P.map Y = gammaMeasure b 1) :
    P.map (fun ω => X ω + Y ω) = gammaMeasure (a + b) 1 ∧
      P.map (fun ω => X ω / (X ω + Y ω)) = betaMeasure a b := by
  have := isProbabilityMeasure_gammaMeasure (add_pos ha hb) one_pos
  have := isProbabilityMeasureBeta ha hb
  have hj : P.map (fun ω => (X ω, Y ω)) = (gammaMeasure a 1).prod (gammaMeasure b 1) := by
    rw [(indepFun_iff_map_prod_eq_prod_map_map hX.aemeasurable hY.aemeasurable).1 h, lX, lY]
  have hm : Measurable fun p : ℝ × ℝ => (p.1 / (p.1 + p.2), p.1 + p.2) := by fun_prop
  have key : P.map (fun ω => (X ω / (X ω + Y ω), X ω + Y ω)) =
      (betaMeasure a b).prod (gammaMeasure (a + b) 1) := by
    rw [← gamma_ratio ha hb, ← hj, Measure.map_map hm (by fun_prop)]
    rfl
  constructor
  · have := congrArg (Measure.map Prod.snd) key
    rw [Measure.map_map measurable_snd (by fun_prop), Measure.map_snd_prod] at this
    simpa [Function.comp_def] using this
  · have := congrArg (Measure.map Prod.fst) key
    rw [Measure.map_map measurable_fst (by fun_prop), Measure.map_fst_prod] at this
    simpa [Function.comp_def] using this

theorem finset_sum_law [IsProbabilityMeasure P] {ι : Type*} [DecidableEq ι] {G : ι → Ω → ℝ} {α : ι → ℝ}
    (hG : ∀ i, Measurable (G i)) (hi : iIndepFun G P) (hl : ∀ i, P.map (G i) = gammaMeasure (α i) 1)
    (hα : ∀ i, 0 < α i) (s : Finset ι) (hs : s.Nonempty) :
    P.map (fun ω => ∑ i ∈ s, G i ω) = gammaMeasure (∑ i ∈ s, α i) 1 := by
  induction hs using Finset.Nonempty.cons_induction with
  | singleton i => simpa using hl i
  | cons i s his hs ih =>
    have hind : IndepFun (G i) (fun ω => ∑ j ∈ s, G j ω) P := by
      have := (hi.indepFun_finsetSum_of_notMem hG his).symm
      convert this using 1
      ext ω; simp
    have := (sum_law (hα i) (Finset.sum_pos (fun j _ => hα j) hs) (hG i)
      (Finset.measurable_sum _ fun j _ => hG j) hind (hl i) ih).1
    simpa only [Finset.sum_cons] using this

end Verif.GammaRatio
