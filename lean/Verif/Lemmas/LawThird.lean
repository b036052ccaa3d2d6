import Verif.Lemmas.LawMore

/-!
# The third central moment of ExGaussian
-/

namespace Verif.Law
open MeasureTheory Verif.Spec Set Filter

private theorem phi4 : HI (fun z => z ^ 4 * normalPdf 0 1 z) 3 := by
  have k : HIs (Ioi 0) (fun x : ℝ => x ^ (4 : ℝ) * Real.exp (-(1 / 2) * x ^ (2 : ℝ)))
      ((1 / 2) ^ (-((4 : ℝ) + 1) / 2) * (1 / 2) * Real.Gamma ((4 + 1) / 2)) :=
    ⟨integrableOn_rpow_mul_exp_neg_mul_rpow (by norm_num) two_pos (by norm_num),
      integral_rpow_mul_exp_neg_mul_rpow two_pos (by norm_num) (by norm_num)⟩
  have k2 : HIs (Ioi 0) (fun z => z ^ 4 * normalPdf 0 1 z) (3 / 2) := by
    refine (k.cmul (1 / (1 * √(2 * Real.pi)))).congr measurableSet_Ioi (fun x _ => ?_) |>.val ?_
    · unfold normalPdf
      rw [show (4 : ℝ) = ((4 : ℕ) : ℝ) by norm_num, Real.rpow_natCast, Real.rpow_two]
      norm_num
      ring_nf
    · have hg : Real.Gamma ((4 + 1) / 2) = 3 / 4 * √Real.pi := by
        rw [show ((4 : ℝ) + 1) / 2 = (1 / 2 + 1) + 1 by norm_num, Real.Gamma_add_one (by norm_num),
          Real.Gamma_add_one (by norm_num), Real.Gamma_one_half_eq]
        ring
      have hp : ((1 : ℝ) / 2) ^ (-((4 : ℝ) + 1) / 2) = 4 * √2 := by
        rw [one_div, Real.inv_rpow (by norm_num), ← Real.rpow_neg (by norm_num), Real.sqrt_eq_rpow,
          show -(-((4 : ℝ) + 1) / 2) = ((2 : ℕ) : ℝ) + 1 / 2 by norm_num, Real.rpow_add (by norm_num), Real.rpow_natCast]
        norm_num
      have h2 : √(2 : ℝ) ≠ 0 := by positivity
      have h3 : √Real.pi ≠ 0 := (Real.sqrt_pos.2 Real.pi_pos).ne'
      rw [hg, hp, Real.sqrt_mul (by norm_num)]
      field_simp
  exact (k2.sym fun x => by unfold normalPdf; ring_nf).val (by norm_num)

private theorem phi3 : HI (fun z => z ^ 3 * normalPdf 0 1 z) 0 := by
  have r := normalRaw one_pos 0
  have hi : Integrable (fun z => z ^ 3 * normalPdf 0 1 z) := by
    refine (r.second.add phi4).1.mono' (Measurable.mul (by fun_prop) r.meas).aestronglyMeasurable (Eventually.of_forall fun z => ?_)
    have h := r.nonneg z
    rw [Real.norm_eq_abs, abs_mul, abs_of_nonneg h, ← add_mul]
    refine mul_le_mul_of_nonneg_right ?_ h
    rw [abs_le]
    constructor
    · nlinarith [mul_nonneg (sq_nonneg z) (sq_nonneg (z + 1 / 2)), mul_nonneg (sq_nonneg z) (sq_nonneg z)]
    · nlinarith [mul_nonneg (sq_nonneg z) (sq_nonneg (z - 1 / 2)), mul_nonneg (sq_nonneg z) (sq_nonneg z)]
  have h1 : HI (fun z => z ^ 3 * normalPdf 0 1 z) (∫ z, z ^ 3 * normalPdf 0 1 z) := ⟨hi, rfl⟩
  have h2 := (h1.neg.cmul (-1)).congr (h := fun z => z ^ 3 * normalPdf 0 1 z) fun z => by unfold normalPdf; ring_nf
  exact h1.val (by have := h2.2; linarith)

private theorem normal34 {s : ℝ} (hs : 0 < s) (m : ℝ) :
    HI (fun x => (x - m) ^ 3 * normalPdf m s x) 0 ∧ HI (fun x => (x - m) ^ 4 * normalPdf m s x) (3 * s ^ 4) := by
  have e : ∀ x, normalPdf m s x = 1 / s * normalPdf 0 1 ((x - m) / s) := by
    intro x
    unfold normalPdf
    rw [← mul_assoc]
    congr 1
    · field_simp
    · congr 1; field_simp; ring
  constructor
  · refine ((phi3.affine m hs).cmul (s ^ 2)).congr (fun x => ?_) |>.val (by ring)
    rw [e]; field_simp
  · refine ((phi4.affine m hs).cmul (s ^ 3)).congr (fun x => ?_) |>.val (by ring)
    rw [e]; field_simp

private theorem expScale34 {n : ℝ} (hn : 0 < n) : HIs (Ioi 0) (fun t => t ^ 3 * (1 / n * Real.exp (-(t / n)))) (6 * n ^ 3) ∧
    HIs (Ioi 0) (fun t => t ^ 4 * (1 / n * Real.exp (-(t / n)))) (24 * n ^ 4) := by
  have hb : 0 < 1 / n := by positivity
  have e : ∀ t : ℝ, 1 / n * t = t / n := fun t => by field_simp
  have k0 := (gammaInt (a := 4) (by norm_num) hb).cmul (1 / n)
  have k1 := (gammaInt (a := 5) (by norm_num) hb).cmul (1 / n)
  have g3 : Real.Gamma 3 = 2 := by
    rw [show (3 : ℝ) = 2 + 1 by norm_num, Real.Gamma_add_one two_ne_zero, Real.Gamma_two]; norm_num
  have g4 : Real.Gamma 4 = 6 := by
    rw [show (4 : ℝ) = 3 + 1 by norm_num, Real.Gamma_add_one three_ne_zero, g3]; norm_num
  have g5 : Real.Gamma 5 = 24 := by
    rw [show (5 : ℝ) = 4 + 1 by norm_num, Real.Gamma_add_one four_ne_zero, g4]; norm_num
  refine ⟨k0.congr measurableSet_Ioi (fun t ht => ?_) |>.val ?_, k1.congr measurableSet_Ioi (fun t ht => ?_) |>.val ?_⟩
  · rw [e t, show (4 : ℝ) - 1 = ((3 : ℕ) : ℝ) by norm_num, Real.rpow_natCast]; ring
  · rw [g4, show (4 : ℝ) = ((4 : ℕ) : ℝ) by norm_num, Real.rpow_natCast]; field_simp
  · rw [e t, show (5 : ℝ) - 1 = ((4 : ℕ) : ℝ) by norm_num, Real.rpow_natCast]; ring
  · rw [g5, show (5 : ℝ) = ((5 : ℕ) : ℝ) by norm_num, Real.rpow_natCast]; field_simp

private theorem exg4 {s n : ℝ} (hs : 0 < s) (hn : 0 < n) (m c : ℝ) :
    HI (fun x => (x - c) ^ 4 * exGaussianPdf m s n x)
      ((m - c) ^ 4 + 4 * (m - c) ^ 3 * n + 12 * (m - c) ^ 2 * n ^ 2 + 24 * (m - c) * n ^ 3 + 24 * n ^ 4
        + 6 * s ^ 2 * ((m - c) ^ 2 + 2 * (m - c) * n + 2 * n ^ 2) + 3 * s ^ 4) := by
  have hm := (exGaussianRaw hs hn m).meas
  have hN : Measurable (fun p : ℝ × ℝ => normalPdf (m + p.2) s p.1) := by
    unfold normalPdf; fun_prop
  obtain ⟨e0, e1, e2⟩ := expScale hn
  obtain ⟨e3, e4⟩ := expScale34 hn
  refine tonelli (K := fun x t => (x - c) ^ 4 * (1 / n * Real.exp (-(t / n)) * normalPdf (m + t) s x))
    (B := fun t => 1 / n * Real.exp (-(t / n)) * ((m + t - c) ^ 4 + 6 * s ^ 2 * (m + t - c) ^ 2 + 3 * s ^ 4))
    ?_ ?_ ?_ ?_ ?_ ?_
  · exact Measurable.mul (by fun_prop) (Measurable.mul (by fun_prop) hN)
  · intro x t _
    exact mul_nonneg (by positivity) (mul_nonneg (by positivity) ((normalRaw hs _).nonneg x))
  · exact Measurable.mul (by fun_prop) hm
  · intro x
    exact (exg_mix hs hn m x).cmul _
  · intro t _
    have r := normalRaw hs (m + t)
    obtain ⟨r3, r4⟩ := normal34 hs (m + t)
    have d := m + t - c
    refine (((((r4.add (r3.cmul (4 * (m + t - c)))).add (r.second.cmul (6 * (m + t - c) ^ 2))).add
      (r.first.cmul (4 * (m + t - c) ^ 3 - 12 * (m + t - c) ^ 2 * (m + t)))).add
      (r.one.cmul ((m + t - c) ^ 4 - 4 * (m + t - c) ^ 3 * (m + t) + 6 * (m + t - c) ^ 2 * (m + t) ^ 2))).cmul
        (1 / n * Real.exp (-(t / n)))).congr
      (fun x => by ring) |>.val (by ring)
  · refine ((((e4.add (e3.cmul (4 * (m - c)))).add (e2.cmul (6 * (m - c) ^ 2 + 6 * s ^ 2))).add
      (e1.cmul (4 * (m - c) ^ 3 + 12 * s ^ 2 * (m - c)))).add
      (e0.cmul ((m - c) ^ 4 + 6 * s ^ 2 * (m - c) ^ 2 + 3 * s ^ 4))).congr measurableSet_Ioi
      (fun t _ => by ring) |>.val (by ring)

/-- the third and the fourth central moment -/
theorem exGaussian34 {s n : ℝ} (hs : 0 < s) (hn : 0 < n) (m : ℝ) :
    HI (fun x => (x - (m + n)) ^ 3 * exGaussianPdf m s n x) (2 * n ^ 3) ∧
    HI (fun x => (x - (m + n)) ^ 4 * exGaussianPdf m s n x) (3 * (s ^ 2 + n ^ 2) ^ 2 + 6 * n ^ 4) := by
  have r := exGaussianRaw hs hn m
  have a := exg4 hs hn m (m + n + 1)
  have b := exg4 hs hn m (m + n - 1)
  constructor
  · refine (((b.add (a.cmul (-1))).cmul (1 / 8)).add ((r.first.cmul (-1)).add (r.one.cmul (m + n)))).congr
      (fun x => by ring) |>.val (by ring)
  · exact (exg4 hs hn m (m + n)).val (by ring)

end Verif.Law
