import Verif.Lemmas.LawEven
import Verif.Spec.LawMore
import Mathlib.Analysis.SpecialFunctions.Gamma.BohrMollerup

/-!
# Means and variances: HalfStudentT, ExGaussian
-/

namespace Verif.Law
open MeasureTheory Verif.Spec Set Filter
open scoped Topology

theorem HI.half {g : ℝ → ℝ} {c : ℝ} (H : HI g c) (he : ∀ x, g (-x) = g x) : HIs (Ioi 0) g (c / 2) := by
  have h : HIs (Ioi 0) g (∫ x in Ioi 0, g x) := ⟨H.1.integrableOn, rfl⟩
  have h2 := (h.sym he).2
  refine h.val ?_
  rw [H.2] at h2
  linarith

private theorem cauchyFirst {a : ℝ} (ha : 1 < a) : HIs (Ioi 0) (fun x : ℝ => x * (1 + x ^ 2) ^ (-a)) (1 / (2 * (a - 1))) := by
  have hd : ∀ x ∈ Ici (0 : ℝ), HasDerivAt (fun x : ℝ => -(1 / (2 * (a - 1))) * (1 + x ^ 2) ^ (1 - a)) (x * (1 + x ^ 2) ^ (-a)) x := by
    intro x _
    have hx : 0 < 1 + x ^ 2 := by positivity
    have h1 : HasDerivAt (fun x : ℝ => 1 + x ^ 2) (2 * x) x := by
      simpa using (hasDerivAt_pow 2 x).const_add 1
    have h2 := (h1.rpow_const (p := 1 - a) (Or.inl hx.ne')).const_mul (-(1 / (2 * (a - 1))))
    refine h2.congr_deriv ?_
    rw [show 1 - a - 1 = -a by ring]
    have : a - 1 ≠ 0 := by linarith
    field_simp
    ring
  have hl : Tendsto (fun x : ℝ => -(1 / (2 * (a - 1))) * (1 + x ^ 2) ^ (1 - a)) atTop (𝓝 0) := by
    have h1 : Tendsto (fun x : ℝ => 1 + x ^ 2) atTop atTop :=
      tendsto_atTop_add_const_left _ _ (tendsto_pow_atTop two_ne_zero)
    have h2 := (tendsto_rpow_neg_atTop (y := a - 1) (by linarith)).comp h1
    have h3 := h2.const_mul (-(1 / (2 * (a - 1))))
    simp only [mul_zero, neg_sub] at h3
    exact h3
  have hp : ∀ x ∈ Ioi (0 : ℝ), 0 ≤ x * (1 + x ^ 2) ^ (-a) := fun x hx => by
    have : (0 : ℝ) < x := hx
    positivity
  refine ⟨integrableOn_Ioi_deriv_of_nonneg' hd hp hl, ?_⟩
  rw [integral_Ioi_of_hasDerivAt_of_nonneg' hd hp hl]
  norm_num

theorem halfStudentRaw {n s : ℝ} (hn : 2 < n) (hs : 0 < s) :
    Raw (halfStudentPdf n s) (halfStudentMean n s) (s ^ 2 * n / (n - 2)) := by
  set a := (n + 1) / 2 with ha
  have ha2 : 3 / 2 < a := by rw [ha]; linarith
  have hG := Real.Gamma_pos_of_pos (show 0 < a by linarith)
  have hH := Real.Gamma_pos_of_pos (show 0 < n / 2 by linarith)
  have hpi := Real.sqrt_pos.mpr Real.pi_pos
  have hn0 : 0 < n := by linarith
  have hsn := Real.sqrt_pos.mpr hn0
  have eH : a - 1 / 2 = n / 2 := by rw [ha]; ring
  have c0 := cauchyInt (show 1 / 2 < a by linarith)
  have c1 := cauchyInt (show 1 / 2 < a - 1 by linarith)
  have i0 := (c0.half fun x => by rw [neg_sq]).cmul (2 * (Real.Gamma a / (√Real.pi * Real.Gamma (n / 2))))
  have i1 := (c1.half fun x => by rw [neg_sq]).cmul (2 * (Real.Gamma a / (√Real.pi * Real.Gamma (n / 2))))
  have i2 := (cauchyFirst (show 1 < a by linarith)).cmul (2 * (Real.Gamma a / (√Real.pi * Real.Gamma (n / 2))))
  rw [eH] at i0
  have n2 : n - 2 ≠ 0 := by intro h; linarith
  have n1 : n - 1 ≠ 0 := by intro h; linarith
  have v0 : 2 * (Real.Gamma a / (√Real.pi * Real.Gamma (n / 2))) * (√Real.pi * Real.Gamma (n / 2) / Real.Gamma a / 2) = 1 := by
    field_simp
  have g1 : Real.Gamma a = (n - 1) / 2 * Real.Gamma (a - 1) := by
    have := Real.Gamma_add_one (show a - 1 ≠ 0 by intro h; linarith)
    rw [sub_add_cancel] at this
    rw [this]; congr 1; rw [ha]; ring
  have g2 : Real.Gamma (n / 2) = (n - 2) / 2 * Real.Gamma (a - 1 - 1 / 2) := by
    have := Real.Gamma_add_one (show n / 2 - 1 ≠ 0 by intro h; linarith)
    rw [sub_add_cancel] at this
    rw [this, show a - 1 - 1 / 2 = n / 2 - 1 by rw [ha]; ring]; congr 1; ring
  have p1 := Real.Gamma_pos_of_pos (show 0 < a - 1 by linarith)
  have p2 := Real.Gamma_pos_of_pos (show 0 < a - 1 - 1 / 2 by linarith)
  have v1 : 2 * (Real.Gamma a / (√Real.pi * Real.Gamma (n / 2))) * (√Real.pi * Real.Gamma (a - 1 - 1 / 2) / Real.Gamma (a - 1) / 2) =
      (n - 1) / (n - 2) := by
    rw [g1, g2]
    generalize Real.Gamma (a - 1 - 1 / 2) = y at p2 ⊢
    generalize Real.Gamma (a - 1) = x at p1 ⊢
    field_simp
  have hr := Raw.on (s := Ioi 0) (g := fun x => 2 * (Real.Gamma a / (√Real.pi * Real.Gamma (n / 2))) * (1 + x ^ 2) ^ (-a))
    (m := 2 * (Real.Gamma a / (√Real.pi * Real.Gamma (n / 2))) * (1 / (2 * (a - 1)))) (q := 1 / (n - 2)) measurableSet_Ioi
    (by fun_prop) (fun x _ => by positivity) (i0.val v0) (i2.congr measurableSet_Ioi fun x _ => by ring) (by
      refine (i1.add (i0.cmul (-1))).congr measurableSet_Ioi (fun x _ => ?_) |>.val ?_
      · have hx : 0 < 1 + x ^ 2 := by positivity
        rw [show -(a - 1) = -a + 1 by ring, Real.rpow_add_one hx.ne']; ring
      · rw [v0, v1]; field_simp; ring)
  have hb : 0 < s * √n := by positivity
  have h := (hr.affine 0 hb).ae (g := halfStudentPdf n s) ?_ ?_ 0 ?_
  · convert h using 1
    · unfold halfStudentMean
      rw [← ha, Real.sqrt_div hn0.le, show a - 1 = (n - 1) / 2 by rw [ha]; ring]
      field_simp
      ring
    · have : (s * √n) ^ 2 = s ^ 2 * n := by rw [mul_pow, Real.sq_sqrt hn0.le]
      rw [this]; ring
  · unfold halfStudentPdf
    exact Measurable.ite measurableSet_Iio measurable_const (by fun_prop)
  · intro x
    unfold halfStudentPdf
    split_ifs
    · exact le_rfl
    · positivity
  · intro x hx
    simp only [sub_zero]
    rcases lt_or_gt_of_ne hx with h | h
    · have : ¬(0 < x / (s * √n)) := not_lt.2 (div_nonpos_of_nonpos_of_nonneg h.le hb.le)
      simp [halfStudentPdf, Set.indicator, h, this]
    · have h2 : 0 < x / (s * √n) := by positivity
      simp only [halfStudentPdf, Set.indicator, mem_Ioi, h2, if_true, not_lt.2 h.le, if_false, ← ha]
      have e1 : (x / (s * √n)) ^ 2 = 1 / n * (x ^ 2 / s ^ 2) := by
        rw [div_pow, mul_pow, Real.sq_sqrt hn0.le]; field_simp
      have e2 : √(n * Real.pi * s ^ 2) = √n * √Real.pi * s := by
        rw [Real.sqrt_mul (by positivity), Real.sqrt_mul hn0.le, Real.sqrt_sq hs.le]
      rw [e1, e2]
      field_simp

theorem halfStudent {n s : ℝ} (hn : 2 < n) (hs : 0 < s) :
    HasMoments (ofPdf (halfStudentPdf n s)) (halfStudentMean n s) (halfStudentVar n s) := by
  have h := (halfStudentRaw hn hs).moments
  convert h using 1
  unfold halfStudentVar halfStudentMean
  have h1 : 0 ≤ n / Real.pi := by have := Real.pi_pos; positivity
  have hg : Real.Gamma (n / 2) ≠ 0 := (Real.Gamma_pos_of_pos (by linarith)).ne'
  have : n - 1 ≠ 0 := by intro h; linarith
  have : n - 2 ≠ 0 := by intro h; linarith
  have hp := Real.pi_ne_zero
  rw [mul_pow, mul_pow, mul_pow, Real.sq_sqrt h1]
  field_simp
  ring

/-- `Γ` is log-convex -/
private theorem gamma_mid {x : ℝ} (h : 1 / 2 < x) :
    Real.Gamma x ^ 2 ≤ Real.Gamma (x - 1 / 2) * Real.Gamma (x + 1 / 2) := by
  have h1 := Real.Gamma_mul_add_mul_le_rpow_Gamma_mul_rpow_Gamma (s := x - 1 / 2) (t := x + 1 / 2) (a := 1 / 2)
    (b := 1 / 2) (by linarith) (by linarith) (by norm_num) (by norm_num) (by norm_num)
  have h2 : (1 / 2 : ℝ) * (x - 1 / 2) + 1 / 2 * (x + 1 / 2) = x := by ring
  rw [h2, ← Real.sqrt_eq_rpow, ← Real.sqrt_eq_rpow] at h1
  have g0 := Real.Gamma_pos_of_pos (by linarith : 0 < x)
  have g1 := Real.Gamma_pos_of_pos (by linarith : 0 < x - 1 / 2)
  have g2 := Real.Gamma_pos_of_pos (by linarith : 0 < x + 1 / 2)
  calc Real.Gamma x ^ 2 ≤ (Real.sqrt (Real.Gamma (x - 1 / 2)) * Real.sqrt (Real.Gamma (x + 1 / 2))) ^ 2 :=
        pow_le_pow_left₀ g0.le h1 2
    _ = _ := by rw [mul_pow, Real.sq_sqrt g1.le, Real.sq_sqrt g2.le]

/-- the quotient of the Gamma values in the moments of HalfStudentT -/
theorem gamma_ratio {n : ℝ} (hn : 2 < n) : (n - 1) / 2 ≤ (Real.Gamma ((n + 1) / 2) / Real.Gamma (n / 2)) ^ 2 ∧
    (Real.Gamma ((n + 1) / 2) / Real.Gamma (n / 2)) ^ 2 ≤ n / 2 := by
  have hG := Real.Gamma_pos_of_pos (show 0 < (n + 1) / 2 by linarith)
  have hH := Real.Gamma_pos_of_pos (show 0 < n / 2 by linarith)
  have m1 := gamma_mid (x := (n + 1) / 2) (by linarith)
  have m2 := gamma_mid (x := n / 2) (by linarith)
  rw [show (n + 1) / 2 - 1 / 2 = n / 2 by ring, show (n + 1) / 2 + 1 / 2 = n / 2 + 1 by ring,
    Real.Gamma_add_one (by linarith)] at m1
  have e : Real.Gamma (n / 2 + 1 / 2) = (n - 1) / 2 * Real.Gamma (n / 2 - 1 / 2) := by
    rw [← show n / 2 - 1 / 2 + 1 = n / 2 + 1 / 2 by ring, Real.Gamma_add_one (by linarith)]; congr 1; ring
  rw [div_pow]
  constructor
  · rw [le_div_iff₀ (by positivity)]
    rw [show (n + 1) / 2 = n / 2 + 1 / 2 by ring]
    calc (n - 1) / 2 * Real.Gamma (n / 2) ^ 2 ≤ (n - 1) / 2 * (Real.Gamma (n / 2 - 1 / 2) * Real.Gamma (n / 2 + 1 / 2)) :=
          mul_le_mul_of_nonneg_left m2 (by linarith)
      _ = Real.Gamma (n / 2 + 1 / 2) ^ 2 := by rw [sq (Real.Gamma _)]; nth_rw 2 [e]; ring
  · rw [div_le_iff₀ (by positivity)]
    nlinarith

/-! ## ExGaussian -/

private theorem phi_tail {s : ℝ} (hs : 0 < s) (a : ℝ) : HIs (Ioi 0) (normalPdf a s) (stdNormalCdf (a / s)) := by
  have i0 := (normalRaw one_pos 0).one
  have h1 : HI ((Iic (a / s)).indicator (normalPdf 0 1)) (stdNormalCdf (a / s)) :=
    HIs.all measurableSet_Iic ⟨i0.1.integrableOn, rfl⟩
  have h2 := (h1.neg.affine a hs).cmul (1 / s)
  have h3 : HI ((Ici 0).indicator (normalPdf a s)) (stdNormalCdf (a / s)) := by
    refine h2.congr (fun x => ?_) |>.val (by field_simp)
    have hx : -((x - a) / s) ≤ a / s ↔ 0 ≤ x := by
      rw [← neg_div, div_le_div_iff_of_pos_right hs]
      constructor <;> intro h <;> linarith
    by_cases h : 0 ≤ x
    · simp only [Set.indicator, mem_Iic, mem_Ici, hx, h, if_true]
      unfold normalPdf
      rw [one_mul, ← mul_assoc]
      congr 1
      · field_simp
      · congr 1; field_simp; ring
    · simp only [Set.indicator, mem_Iic, mem_Ici, hx, h, if_false, mul_zero]
  refine ⟨((integrable_indicator_iff measurableSet_Ici).1 h3.1).mono_set Ioi_subset_Ici_self, ?_⟩
  rw [← integral_Ici_eq_integral_Ioi, ← integral_indicator measurableSet_Ici, h3.2]

theorem exg_mix {s n : ℝ} (hs : 0 < s) (hn : 0 < n) (m x : ℝ) :
    HIs (Ioi 0) (fun t => 1 / n * Real.exp (-(t / n)) * normalPdf (m + t) s x) (exGaussianPdf m s n x) := by
  have h := (phi_tail hs (x - m - s ^ 2 / n)).cmul (1 / n * Real.exp ((m - x) / n + s ^ 2 / (2 * n ^ 2)))
  refine h.congr measurableSet_Ioi (fun t _ => ?_) |>.val ?_
  · unfold normalPdf
    rw [mul_assoc, mul_assoc, mul_left_comm (Real.exp _) (1 / _), mul_left_comm (Real.exp _) (1 / _), ← Real.exp_add, ← Real.exp_add]
    congr 3
    field_simp
    ring
  · unfold exGaussianPdf
    congr 2
    field_simp

theorem expScale {n : ℝ} (hn : 0 < n) : HIs (Ioi 0) (fun t => 1 / n * Real.exp (-(t / n))) 1 ∧
    HIs (Ioi 0) (fun t => t * (1 / n * Real.exp (-(t / n)))) n ∧ HIs (Ioi 0) (fun t => t ^ 2 * (1 / n * Real.exp (-(t / n)))) (2 * n ^ 2) := by
  have hb : 0 < 1 / n := by positivity
  have e : ∀ t : ℝ, 1 / n * t = t / n := fun t => by field_simp
  have k0 := (gammaInt one_pos hb).cmul (1 / n)
  have k1 := (gammaInt two_pos hb).cmul (1 / n)
  have k2 := (gammaInt three_pos hb).cmul (1 / n)
  refine ⟨k0.congr measurableSet_Ioi (fun t ht => ?_) |>.val ?_, k1.congr measurableSet_Ioi (fun t ht => ?_) |>.val ?_,
    k2.congr measurableSet_Ioi (fun t ht => ?_) |>.val ?_⟩
  · rw [e t, sub_self, Real.rpow_zero, one_mul]
  · rw [Real.Gamma_one, Real.rpow_one]; field_simp
  · rw [e t, show (2 : ℝ) - 1 = 1 by norm_num, Real.rpow_one]; ring
  · rw [Real.Gamma_two, Real.rpow_two]; field_simp
  · rw [e t, show (3 : ℝ) - 1 = 2 by norm_num, Real.rpow_two]; ring
  · rw [show (3 : ℝ) = 2 + 1 by norm_num, Real.Gamma_add_one two_ne_zero, Real.Gamma_two,
      show (2 : ℝ) + 1 = ((3 : ℕ) : ℝ) by norm_num, Real.rpow_natCast]; field_simp

theorem exGaussianRaw {s n : ℝ} (hs : 0 < s) (hn : 0 < n) (m : ℝ) :
    Raw (exGaussianPdf m s n) (m + n) ((m + n) ^ 2 + s ^ 2 + n ^ 2) := by
  have hcdf : Monotone stdNormalCdf := by
    intro a b hab
    unfold stdNormalCdf
    have i0 := (normalRaw one_pos 0)
    exact setIntegral_mono_set i0.one.1.integrableOn (Eventually.of_forall fun x => i0.nonneg x)
      (Iic_subset_Iic.2 hab).eventuallyLE
  have hm : Measurable (exGaussianPdf m s n) := by
    unfold exGaussianPdf
    refine Measurable.mul (by fun_prop) (hcdf.measurable.comp (by fun_prop))
  have h0 : ∀ x, 0 ≤ exGaussianPdf m s n x := by
    intro x
    have : 0 ≤ stdNormalCdf ((x - m) / s - s / n) :=
      setIntegral_nonneg measurableSet_Iic fun t _ => (normalRaw one_pos 0).nonneg t
    unfold exGaussianPdf; positivity
  obtain ⟨e0, e1, e2⟩ := expScale hn
  have hN : Measurable (fun p : ℝ × ℝ => normalPdf (m + p.2) s p.1) := by
    unfold normalPdf; fun_prop
  have one : HI (exGaussianPdf m s n) 1 := by
    refine tonelli (K := fun x t => 1 / n * Real.exp (-(t / n)) * normalPdf (m + t) s x) (B := fun t => 1 / n * Real.exp (-(t / n)))
      ?_ ?_ hm (exg_mix hs hn m) ?_ e0
    · exact Measurable.mul (by fun_prop) hN
    · intro x t _
      exact mul_nonneg (by positivity) ((normalRaw hs _).nonneg x)
    · intro t _
      exact ((normalRaw hs (m + t)).one.cmul _).val (mul_one _)
  have sec : ∀ c, HI (fun x => (x - c) ^ 2 * exGaussianPdf m s n x) ((m + n - c) ^ 2 + s ^ 2 + n ^ 2) := by
    intro c
    refine tonelli (K := fun x t => (x - c) ^ 2 * (1 / n * Real.exp (-(t / n)) * normalPdf (m + t) s x))
      (B := fun t => 1 / n * Real.exp (-(t / n)) * ((m + t - c) ^ 2 + s ^ 2))
      ?_ ?_ ?_ ?_ ?_ ?_
    · exact Measurable.mul (by fun_prop) (Measurable.mul (by fun_prop) hN)
    · intro x t _
      exact mul_nonneg (sq_nonneg _) (mul_nonneg (by positivity) ((normalRaw hs _).nonneg x))
    · exact Measurable.mul (by fun_prop) hm
    · intro x
      exact (exg_mix hs hn m x).cmul _
    · intro t _
      have r := normalRaw hs (m + t)
      refine (((r.second.add (r.first.cmul (-2 * c))).add (r.one.cmul (c ^ 2))).cmul (1 / n * Real.exp (-(t / n)))).congr
        (fun x => by ring) |>.val (by ring)
    · refine ((e2.add (e1.cmul (2 * (m - c)))).add (e0.cmul ((m - c) ^ 2 + s ^ 2))).congr measurableSet_Ioi
        (fun t _ => by ring) |>.val (by ring)
  refine ⟨hm, h0, one, ?_, ?_⟩
  · refine (((sec (-1)).add ((sec 1).cmul (-1))).cmul (1 / 4)).congr (fun x => by ring) |>.val (by ring)
  · refine (sec 0).congr (fun x => by ring) |>.val (by ring)

theorem exGaussian {s n : ℝ} (hs : 0 < s) (hn : 0 < n) (m : ℝ) :
    HasMoments (ofPdf (exGaussianPdf m s n)) (m + n) (s ^ 2 + n ^ 2) := by
  have h := (exGaussianRaw hs hn m).moments
  rwa [show (m + n) ^ 2 + s ^ 2 + n ^ 2 - (m + n) ^ 2 = s ^ 2 + n ^ 2 by ring] at h

end Verif.Law
