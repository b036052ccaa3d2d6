import Verif.Lemmas.LawBase
import Mathlib.MeasureTheory.Integral.Gamma
import Mathlib.Analysis.SpecialFunctions.Gaussian.GaussianIntegral

/-!
# Means and variances: Gamma and its relatives
-/

namespace Verif.Law
open MeasureTheory Verif.Spec Set

/-- the gamma integral -/
theorem gammaInt {a b : ℝ} (ha : 0 < a) (hb : 0 < b) :
    HIs (Ioi 0) (fun x => x ^ (a - 1) * Real.exp (-(b * x))) (Real.Gamma a / b ^ a) := by
  constructor
  · have := integrableOn_rpow_mul_exp_neg_mul_rpow (p := 1) (s := a - 1) (b := b) (by linarith) one_pos hb
    refine this.congr_fun (fun x hx => ?_) measurableSet_Ioi
    simp only [Real.rpow_one, neg_mul]
  · rw [Real.integral_rpow_mul_exp_neg_mul_Ioi ha hb, one_div, Real.inv_rpow hb.le]
    field_simp

private theorem rpow_up {x : ℝ} (hx : x ∈ Ioi (0 : ℝ)) (a : ℝ) : x * x ^ (a - 1) = x ^ (a + 1 - 1) := by
  have hx : 0 < x := hx
  rw [show a + 1 - 1 = 1 + (a - 1) by ring, Real.rpow_add hx, Real.rpow_one]

theorem gammaRaw {a b : ℝ} (ha : 0 < a) (hb : 0 < b) : Raw (gammaPdf a b) (a / b) (a * (a + 1) / b ^ 2) := by
  have hG := Real.Gamma_pos_of_pos ha
  have hba : 0 < b ^ a := Real.rpow_pos_of_pos hb a
  have g1 : Real.Gamma (a + 1) = a * Real.Gamma a := Real.Gamma_add_one ha.ne'
  have g2 : Real.Gamma (a + 1 + 1) = (a + 1) * (a * Real.Gamma a) := by rw [Real.Gamma_add_one (by linarith), g1]
  have b1 : b ^ (a + 1) = b ^ a * b := by rw [Real.rpow_add hb, Real.rpow_one]
  have b2 : b ^ (a + 1 + 1) = b ^ a * b * b := by rw [Real.rpow_add hb, Real.rpow_one, b1]
  have h := Raw.on (s := Ioi 0) (g := fun x => b ^ a * x ^ (a - 1) * Real.exp (-(b * x)) / Real.Gamma a)
    (m := a / b) (q := a * (a + 1) / b ^ 2) measurableSet_Ioi (by fun_prop) (fun x hx => ?_) ?_ ?_ ?_
  · refine h.congr fun x => ?_
    simp only [Set.indicator, Set.mem_Ioi, gammaPdf]
  · have : 0 < x := hx
    positivity
  · refine ((gammaInt ha hb).cmul (b ^ a / Real.Gamma a)).congr measurableSet_Ioi (fun x hx => ?_) |>.val (by field_simp)
    ring
  · refine ((gammaInt (a := a + 1) (by linarith) hb).cmul (b ^ a / Real.Gamma a)).congr measurableSet_Ioi (fun x hx => ?_)
      |>.val (by rw [g1, b1]; field_simp)
    rw [← rpow_up hx]; ring
  · refine ((gammaInt (a := a + 1 + 1) (by linarith) hb).cmul (b ^ a / Real.Gamma a)).congr measurableSet_Ioi
      (fun x hx => ?_) |>.val (by rw [g2, b2]; field_simp)
    rw [← rpow_up hx, ← rpow_up hx]; ring

theorem gamma {a b : ℝ} (ha : 0 < a) (hb : 0 < b) : HasMoments (ofPdf (gammaPdf a b)) (a / b) (a / b ^ 2) := by
  have := (gammaRaw ha hb).moments
  rwa [show a * (a + 1) / b ^ 2 - (a / b) ^ 2 = a / b ^ 2 by field_simp; ring] at this

theorem exponential {l : ℝ} (hl : 0 < l) : HasMoments (ofPdf (exponentialPdf l)) (1 / l) (1 / l ^ 2) := by
  have := ((gammaRaw one_pos hl).ae (g := exponentialPdf l) ?_ ?_ 0 ?_).moments
  · rwa [show (1 : ℝ) * (1 + 1) / l ^ 2 - (1 / l) ^ 2 = 1 / l ^ 2 by field_simp; ring] at this
  · unfold exponentialPdf
    exact Measurable.ite measurableSet_Iio measurable_const (by fun_prop)
  · intro x
    unfold exponentialPdf
    split_ifs
    · exact le_rfl
    · positivity
  · intro x hx
    rcases lt_or_gt_of_ne hx with h | h
    · simp [gammaPdf, exponentialPdf, h, h.le]
    · simp [gammaPdf, exponentialPdf, h, h.le]

theorem chiSquared {n : ℝ} (hn : 0 < n) : HasMoments (ofPdf (chiSquaredPdf n)) n (2 * n) := by
  have h := ((gammaRaw (a := n / 2) (b := 1 / 2) (by linarith) (by norm_num)).congr (g := chiSquaredPdf n) ?_).moments
  · convert h using 1
    · field_simp
    · field_simp; ring
  · intro x
    unfold gammaPdf chiSquaredPdf
    split_ifs with hx
    · rw [show n / 2 - 1 = (n - 2) / 2 by ring, show -(1 / 2 * x) = -x / 2 by ring, one_div, Real.inv_rpow (by norm_num)]
      field_simp
    · rfl

/-- the integral of the inverse gamma density -/
theorem invGammaInt {a b : ℝ} (ha : 0 < a) (hb : 0 < b) :
    HIs (Ioi 0) (fun x => x ^ (-a - 1) * Real.exp (-b / x)) (Real.Gamma a / b ^ a) := by
  have h := gammaInt ha hb
  have e : ∀ x ∈ Ioi (0 : ℝ), (|(-1 : ℝ)| * x ^ ((-1 : ℝ) - 1)) • ((x ^ (-1 : ℝ)) ^ (a - 1) * Real.exp (-(b * x ^ (-1 : ℝ)))) =
      x ^ (-a - 1) * Real.exp (-b / x) := by
    intro x hx
    have hx : 0 < x := hx
    rw [← Real.rpow_mul hx.le, abs_neg, abs_one, one_mul, smul_eq_mul, ← mul_assoc, ← Real.rpow_add hx, Real.rpow_neg_one]
    congr 2
    · ring
    · rw [neg_div, div_eq_mul_inv]
  refine HIs.congr measurableSet_Ioi ⟨?_, ?_⟩ e
  · exact (integrableOn_Ioi_comp_rpow_iff (fun x => x ^ (a - 1) * Real.exp (-(b * x))) (p := -1) (by norm_num)).mpr h.1
  · exact (integral_comp_rpow_Ioi (fun x => x ^ (a - 1) * Real.exp (-(b * x))) (p := -1) (by norm_num)).trans h.2

private theorem rpow_down {x : ℝ} (hx : x ∈ Ioi (0 : ℝ)) (a : ℝ) : x * x ^ (-a - 1) = x ^ (-(a - 1) - 1) := by
  have hx : 0 < x := hx
  rw [show -(a - 1) - 1 = 1 + (-a - 1) by ring, Real.rpow_add hx, Real.rpow_one]

theorem inverseGamma {a b : ℝ} (ha : 2 < a) (hb : 0 < b) :
    HasMoments (ofPdf (inverseGammaPdf a b)) (b / (a - 1)) (b ^ 2 / ((a - 1) ^ 2 * (a - 2))) := by
  have ha0 : 0 < a - 1 - 1 := by linarith
  have ha1 : 0 < a - 1 := by linarith
  have ha2 : a - 2 ≠ 0 := by linarith
  have hG := Real.Gamma_pos_of_pos ha0
  have g1 : Real.Gamma (a - 1) = (a - 2) * Real.Gamma (a - 1 - 1) := by
    have := Real.Gamma_add_one ha0.ne'
    rw [sub_add_cancel] at this
    rw [this]; ring
  have g2 : Real.Gamma a = (a - 1) * ((a - 2) * Real.Gamma (a - 1 - 1)) := by
    have := Real.Gamma_add_one ha1.ne'
    rw [sub_add_cancel] at this
    rw [this, g1]
  have hb0 : 0 < b ^ (a - 1 - 1) := Real.rpow_pos_of_pos hb _
  have b1 : b ^ (a - 1) = b ^ (a - 1 - 1) * b := by
    rw [← Real.rpow_add_one hb.ne']; ring_nf
  have b2 : b ^ a = b ^ (a - 1 - 1) * b * b := by
    rw [← b1, ← Real.rpow_add_one hb.ne']; ring_nf
  have hpos : 0 < b ^ a / Real.Gamma a := div_pos (Real.rpow_pos_of_pos hb _) (Real.Gamma_pos_of_pos (by linarith))
  have h := Raw.on (s := Ioi 0) (g := fun x => b ^ a / Real.Gamma a * x ^ (-a - 1) * Real.exp (-b / x))
    (m := b / (a - 1)) (q := b ^ 2 / ((a - 1) * (a - 2))) measurableSet_Ioi (by fun_prop) (fun x hx => ?_) ?_ ?_ ?_
  · have h' := (h.congr (g := inverseGammaPdf a b) fun x => by simp only [Set.indicator, Set.mem_Ioi, inverseGammaPdf]).moments
    rwa [show b ^ 2 / ((a - 1) * (a - 2)) - (b / (a - 1)) ^ 2 = b ^ 2 / ((a - 1) ^ 2 * (a - 2)) by
      field_simp; ring] at h'
  · have : 0 < x := hx
    positivity
  · refine ((invGammaInt (a := a) (by linarith) hb).cmul (b ^ a / Real.Gamma a)).congr measurableSet_Ioi (fun x hx => ?_)
      |>.val ?_
    · ring
    · rw [g2]; have := Real.rpow_pos_of_pos hb a; field_simp
  · refine ((invGammaInt ha1 hb).cmul (b ^ a / Real.Gamma a)).congr measurableSet_Ioi (fun x hx => ?_)
      |>.val ?_
    · rw [← rpow_down hx]; ring
    · rw [g2, g1, b1, b2]; field_simp
  · refine ((invGammaInt ha0 hb).cmul (b ^ a / Real.Gamma a)).congr measurableSet_Ioi (fun x hx => ?_)
      |>.val ?_
    · rw [← rpow_down hx, ← rpow_down hx]; ring
    · rw [g2, b2]; field_simp

end Verif.Law
