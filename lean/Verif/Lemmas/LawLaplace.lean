import Verif.Lemmas.LawSimple

/-!
# Means and variances: Laplace, AsymmetricLaplace, Pareto, Beta, BetaScaled
-/

namespace Verif.Law
open MeasureTheory Verif.Spec Set

/-- powers times an exponential on the half line -/
theorem expInt {k : ℝ} (hk : 0 < k) :
    HIs (Ioi 0) (fun x => Real.exp (-(k * x))) (1 / k) ∧ HIs (Ioi 0) (fun x => x * Real.exp (-(k * x))) (1 / k ^ 2) ∧
      HIs (Ioi 0) (fun x => x ^ 2 * Real.exp (-(k * x))) (2 / k ^ 3) := by
  refine ⟨?_, ?_, ?_⟩
  · refine (gammaInt one_pos hk).congr measurableSet_Ioi (fun x _ => ?_) |>.val ?_
    · rw [sub_self, Real.rpow_zero, one_mul]
    · rw [Real.Gamma_one, Real.rpow_one]
  · refine (gammaInt two_pos hk).congr measurableSet_Ioi (fun x _ => ?_) |>.val ?_
    · rw [show (2 : ℝ) - 1 = 1 by norm_num, Real.rpow_one]
    · rw [Real.Gamma_two, Real.rpow_two]
  · refine (gammaInt three_pos hk).congr measurableSet_Ioi (fun x _ => ?_) |>.val ?_
    · rw [show (3 : ℝ) - 1 = 2 by norm_num, Real.rpow_two]
    · have e1 : Real.Gamma 3 = 2 := by
        have := Real.Gamma_nat_eq_factorial 2
        rw [show ((2 : ℕ) : ℝ) + 1 = 3 by norm_num] at this
        rw [this]; norm_num [Nat.factorial]
      have e2 : k ^ (3 : ℝ) = k ^ 3 := by exact_mod_cast Real.rpow_natCast k 3
      rw [e1, e2]

private theorem compl_Ioi_ae {g : ℝ → ℝ} {c : ℝ} (h : HIs (Iio 0) g c) : HIs (Ioi 0)ᶜ g c := by
  rw [compl_Ioi]
  exact ⟨(integrableOn_Iic_iff_integrableOn_Iio).mpr h.1, by rw [integral_Iic_eq_integral_Iio, h.2]⟩

theorem asymRaw {k : ℝ} (hk : 0 < k) : Raw (asymLaplacePdf k 0 1) (1 / k - k)
    ((1 + k ^ 4) / k ^ 2 + (1 / k - k) ^ 2) := by
  have hk' : 0 < 1 / k := by positivity
  have hc : 0 < k + 1 / k := by positivity
  obtain ⟨p0, p1, p2⟩ := expInt hk
  obtain ⟨n0, n1, n2⟩ := expInt hk'
  have er : ∀ x ∈ Ioi (0 : ℝ), 1 / (k + 1 / k) * Real.exp (-(k * x)) = asymLaplacePdf k 0 1 x := by
    intro x hx
    have hx : ¬ x < 0 := not_lt.mpr (le_of_lt hx)
    simp only [asymLaplacePdf, hx, if_false]
    congr 2
    · ring
    · ring
  have el : ∀ x ∈ Iio (0 : ℝ), 1 / (k + 1 / k) * Real.exp (-(1 / k * -x)) = asymLaplacePdf k 0 1 x := by
    intro x hx
    have hx : x < 0 := hx
    simp only [asymLaplacePdf, hx, if_true]
    congr 2
    · ring
    · field_simp; ring
  refine ⟨?_, ?_, ?_, ?_, ?_⟩
  · unfold asymLaplacePdf
    exact (Real.measurable_exp.comp (Measurable.ite measurableSet_Iio (by fun_prop) (by fun_prop))).const_mul _
  · intro x
    unfold asymLaplacePdf
    positivity
  · have a := (p0.cmul (1 / (k + 1 / k))).congr measurableSet_Ioi er
    have b := (n0.neg.cmul (1 / (k + 1 / k))).congr measurableSet_Iio el
    exact (HIs.split measurableSet_Ioi a (compl_Ioi_ae b)).val (by field_simp; ring)
  · have a := (p1.cmul (1 / (k + 1 / k))).congr measurableSet_Ioi (h := fun x => x * asymLaplacePdf k 0 1 x)
      fun x hx => by simp only [← er x hx]; ring
    have b := (n1.neg.cmul (-(1 / (k + 1 / k)))).congr measurableSet_Iio (h := fun x => x * asymLaplacePdf k 0 1 x)
      fun x hx => by simp only [← el x hx]; ring
    exact (HIs.split measurableSet_Ioi a (compl_Ioi_ae b)).val (by field_simp; ring)
  · have a := (p2.cmul (1 / (k + 1 / k))).congr measurableSet_Ioi (h := fun x => x ^ 2 * asymLaplacePdf k 0 1 x)
      fun x hx => by simp only [← er x hx]; ring
    have b := (n2.neg.cmul (1 / (k + 1 / k))).congr measurableSet_Iio (h := fun x => x ^ 2 * asymLaplacePdf k 0 1 x)
      fun x hx => by simp only [← el x hx]; ring
    exact (HIs.split measurableSet_Ioi a (compl_Ioi_ae b)).val (by field_simp; ring)

private theorem asym_affine {k b : ℝ} (hk : 0 < k) (hb : 0 < b) (m x : ℝ) :
    1 / b * asymLaplacePdf k 0 1 ((x - m) / b) = asymLaplacePdf k m b x := by
  have e : (x - m) / b < 0 ↔ x < m := by
    rw [div_neg_iff]
    constructor
    · rintro (h | h) <;> linarith
    · intro h; right; constructor <;> linarith
  unfold asymLaplacePdf
  simp only [e]
  rw [← mul_assoc]
  congr 1
  · field_simp
  · congr 1
    split_ifs
    · field_simp; ring
    · field_simp; ring

theorem asymmetricLaplace {k b : ℝ} (hk : 0 < k) (hb : 0 < b) (m : ℝ) : HasMoments (ofPdf (asymLaplacePdf k m b))
    (m + b * (1 / k - k)) (b ^ 2 * (1 + k ^ 4) / k ^ 2) := by
  have h := (((asymRaw hk).affine m hb).congr (asym_affine hk hb m)).moments
  convert h using 1
  ring

theorem laplace {b : ℝ} (hb : 0 < b) (m : ℝ) : HasMoments (ofPdf (laplacePdf m b)) m (2 * b ^ 2) := by
  have h := asymmetricLaplace one_pos hb m
  have e : asymLaplacePdf 1 m b = laplacePdf m b := by
    funext x
    unfold asymLaplacePdf laplacePdf
    congr 1
    · congr 1; ring
    · congr 1
      split_ifs with hx
      · rw [abs_of_neg (by linarith)]; ring
      · rw [abs_of_nonneg (by linarith)]; ring
  rw [e] at h
  convert h using 1
  · ring
  · ring

/-- the density as printed: `b` is a rate -/
theorem asymmetricLaplaceDoc {k b : ℝ} (hk : 0 < k) (hb : 0 < b) (m : ℝ) : HasMoments (ofPdf (asymLaplaceDocPdf k m b))
    (m - (k - 1 / k) / b) ((1 + k ^ 4) / (b ^ 2 * k ^ 2)) := by
  have h := asymmetricLaplace hk (inv_pos.mpr hb) m
  have e : asymLaplacePdf k m b⁻¹ = asymLaplaceDocPdf k m b := by
    funext x
    unfold asymLaplacePdf asymLaplaceDocPdf
    congr 1
    · field_simp
    · congr 1
      split_ifs
      · field_simp
      · field_simp
  rw [e] at h
  convert h using 1
  · field_simp; ring
  · field_simp

/-! ## Pareto -/

theorem pareto {a m : ℝ} (ha : 2 < a) (hm : 0 < m) : HasMoments (ofPdf (paretoPdf a m)) (a * m / (a - 1))
    (m ^ 2 * a / ((a - 1) ^ 2 * (a - 2))) := by
  have ha0 : 0 < a := by linarith
  have ha1 : a - 1 ≠ 0 := by linarith
  have ha2 : a - 2 ≠ 0 := by linarith
  have base : ∀ r : ℝ, r < -1 → HIs (Ici m) (fun x => x ^ r) (-m ^ (r + 1) / (r + 1)) := fun r hr =>
    ⟨(integrableOn_Ici_iff_integrableOn_Ioi).mpr (integrableOn_Ioi_rpow_of_lt hr hm),
      by rw [integral_Ici_eq_integral_Ioi, integral_Ioi_rpow_of_lt hr hm]⟩
  have hma : 0 < m ^ a := Real.rpow_pos_of_pos hm a
  have e0 : m ^ (-(a + 1) + 1) = (m ^ a)⁻¹ := by rw [← Real.rpow_neg hm.le]; ring_nf
  have e1 : m ^ (-a + 1) = (m ^ a)⁻¹ * m := by rw [← Real.rpow_neg hm.le, ← Real.rpow_add_one hm.ne']
  have e2 : m ^ (1 - a + 1) = (m ^ a)⁻¹ * m ^ 2 := by
    rw [← Real.rpow_neg hm.le, ← Real.rpow_two, ← Real.rpow_add hm]; ring_nf
  have h := Raw.on (s := Ici m) (g := fun x => a * m ^ a / x ^ (a + 1)) (m := a * m / (a - 1)) (q := a * m ^ 2 / (a - 2))
    measurableSet_Ici (by fun_prop) (fun x hx => ?_) ?_ ?_ ?_
  · have h' := (h.congr (g := paretoPdf a m) fun x => by simp only [Set.indicator, Set.mem_Ici, paretoPdf]).moments
    convert h' using 1
    field_simp; ring
  · have : 0 < x := lt_of_lt_of_le hm hx
    positivity
  · refine ((base (-(a + 1)) (by linarith)).cmul (a * m ^ a)).congr measurableSet_Ici (fun x hx => ?_) |>.val ?_
    · have : 0 < x := lt_of_lt_of_le hm hx
      simp only [Real.rpow_neg this.le, div_eq_mul_inv]
    · rw [e0, show -(a + 1) + 1 = -a by ring]; field_simp
  · refine ((base (-a) (by linarith)).cmul (a * m ^ a)).congr measurableSet_Ici (fun x hx => ?_) |>.val ?_
    · have hx : 0 < x := lt_of_lt_of_le hm hx
      simp only [Real.rpow_add_one hx.ne', Real.rpow_neg hx.le]
      have := Real.rpow_pos_of_pos hx a
      field_simp
    · rw [e1]
      have : -a + 1 ≠ 0 := by linarith
      field_simp; ring
  · refine ((base (1 - a) (by linarith)).cmul (a * m ^ a)).congr measurableSet_Ici (fun x hx => ?_) |>.val ?_
    · have hx : 0 < x := lt_of_lt_of_le hm hx
      simp only [Real.rpow_add_one hx.ne', Real.rpow_sub hx, Real.rpow_one]
      have := Real.rpow_pos_of_pos hx a
      field_simp
    · rw [e2]
      have : 1 - a + 1 ≠ 0 := by linarith
      field_simp; ring

/-! ## Beta -/

open ProbabilityTheory in
theorem betaRaw {a b : ℝ} (ha : 0 < a) (hb : 0 < b) : Raw (betaPdf a b) (a / (a + b))
    (a / (a + b) * ((a + 1) / (a + 1 + b))) := by
  have e : ∀ x, betaPDFReal a b x = betaPdf a b x := by
    intro x
    unfold betaPDFReal betaPdf
    split_ifs
    · ring
    · rfl
  have int : ∀ a b : ℝ, 0 < a → 0 < b → Integrable (betaPDFReal a b) := fun a b ha hb => by
    have h := BetaMoments.integral_pdf a b ha hb
    by_contra hc
    rw [integral_undef hc] at h
    exact zero_ne_one h
  have one : ∀ a b : ℝ, 0 < a → 0 < b → HI (betaPDFReal a b) 1 := fun a b ha hb =>
    ⟨int a b ha hb, BetaMoments.integral_pdf a b ha hb⟩
  refine Raw.congr ⟨measurable_betaPDFReal a b, BetaMoments.pdf_nonneg a b ha hb, one a b ha hb, ?_, ?_⟩ e
  · refine ((one (a + 1) b (by linarith) hb).cmul (a / (a + b))).congr (fun x => ?_) |>.val (mul_one _)
    rw [← BetaMoments.pdf_mul a b ha hb, mul_comm]
  · refine (((one (a + 1 + 1) b (by linarith) hb).cmul ((a + 1) / (a + 1 + b))).cmul (a / (a + b))).congr (fun x => ?_)
      |>.val (by rw [mul_one])
    rw [← BetaMoments.pdf_mul (a + 1) b (by linarith) hb, ← mul_assoc, ← BetaMoments.pdf_mul a b ha hb]; ring

theorem beta {a b : ℝ} (ha : 0 < a) (hb : 0 < b) : HasMoments (ofPdf (betaPdf a b)) (a / (a + b))
    (a * b / ((a + b) ^ 2 * (a + b + 1))) := by
  have h := (betaRaw ha hb).moments
  convert h using 1
  have : a + 1 + b ≠ 0 := by positivity
  have : a + b ≠ 0 := by positivity
  have : a + b + 1 ≠ 0 := by positivity
  field_simp; ring

theorem betaScaled {a b l u : ℝ} (ha : 0 < a) (hb : 0 < b) (h : l < u) : HasMoments (ofPdf (betaScaledPdf a b l u))
    (l + (u - l) * (a / (a + b))) ((u - l) ^ 2 * (a * b / ((a + b) ^ 2 * (a + b + 1)))) := by
  have hd : 0 < u - l := by linarith
  have R := (((betaRaw ha hb).affine l hd).congr (g := betaScaledPdf a b l u) fun x => ?_).moments
  · convert R using 1
    have : a + 1 + b ≠ 0 := by positivity
    have : a + b ≠ 0 := by positivity
    have : a + b + 1 ≠ 0 := by positivity
    field_simp; ring
  · unfold betaPdf betaScaledPdf
    have e : (0 < (x - l) / (u - l) ∧ (x - l) / (u - l) < 1) ↔ (l < x ∧ x < u) := by
      rw [div_lt_one hd, div_pos_iff_of_pos_right hd]
      constructor <;> rintro ⟨h1, h2⟩ <;> constructor <;> linarith
    simp only [e]
    split_ifs with hx
    · have hx1 : 0 < x - l := by linarith [hx.1]
      have hx2 : 0 < u - x := by linarith [hx.2]
      have hB : 0 < ProbabilityTheory.beta a b := ProbabilityTheory.beta_pos ha hb
      rw [show 1 - (x - l) / (u - l) = (u - x) / (u - l) by field_simp; ring, Real.div_rpow hx1.le hd.le,
        Real.div_rpow hx2.le hd.le, show a + b - 1 = (a - 1) + (b - 1) + 1 by ring, Real.rpow_add_one hd.ne',
        Real.rpow_add hd]
      have := Real.rpow_pos_of_pos hd (a - 1)
      have := Real.rpow_pos_of_pos hd (b - 1)
      field_simp
    · rw [mul_zero]

end Verif.Law
