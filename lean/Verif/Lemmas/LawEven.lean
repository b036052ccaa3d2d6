import Verif.Lemmas.LawLaplace
import Verif.Lemmas.LawNormal
import Mathlib.NumberTheory.ZetaValues
import Mathlib.Analysis.SpecialFunctions.Gaussian.GaussianIntegral
import Mathlib.Analysis.SpecialFunctions.Arsinh
import Mathlib.Analysis.SpecialFunctions.ImproperIntegrals

/-!
# Means and variances: Logistic, StudentT, Wald

Even densities, and for Wald the substitution of twice the hyperbolic sine of half the logarithm.
-/

namespace Verif.Law
open MeasureTheory Verif.Spec Set Filter
open scoped Topology

/-- an even density with a second moment has mean zero -/
theorem Raw.even {f : ℝ → ℝ} {q : ℝ} (hm : Measurable f) (h0 : ∀ x, 0 ≤ f x) (he : ∀ x, f (-x) = f x) (i0 : HI f 1)
    (i2 : HI (fun x => x ^ 2 * f x) q) : Raw f 0 q := by
  refine ⟨hm, h0, i0, ?_, i2⟩
  have hi : Integrable fun x => x * f x := by
    refine (i0.add i2).1.mono' (by fun_prop) (Eventually.of_forall fun x => ?_)
    rw [norm_mul, Real.norm_of_nonneg (h0 x), Real.norm_eq_abs]
    have : |x| ≤ 1 + x ^ 2 := by
      rcases abs_cases x with ⟨h, _⟩ | ⟨h, _⟩ <;> rw [h] <;> nlinarith [sq_nonneg (x - 1), sq_nonneg (x + 1)]
    calc |x| * f x ≤ (1 + x ^ 2) * f x := mul_le_mul_of_nonneg_right this (h0 x)
      _ = f x + x ^ 2 * f x := by ring
  refine ⟨hi, ?_⟩
  have h := integral_neg_eq_self (fun x => x * f x) volume
  simp only [he, neg_mul] at h
  rw [integral_neg] at h
  linarith

theorem HIs.sym {g : ℝ → ℝ} {c : ℝ} (H : HIs (Ioi 0) g c) (he : ∀ x, g (-x) = g x) : HI g (2 * c) := by
  have hn := H.neg
  simp only [he] at hn
  have hc : HIs (Ioi 0)ᶜ g c := by
    rw [compl_Ioi]
    exact ⟨(integrableOn_Iic_iff_integrableOn_Iio).mpr hn.1, by rw [integral_Iic_eq_integral_Iio, hn.2]⟩
  exact (H.split measurableSet_Ioi hc).val (by ring)

/-! ## Logistic -/

private noncomputable def lg (x : ℝ) : ℝ := Real.exp (-x) / (1 + Real.exp (-x)) ^ 2

private theorem lg_even (x : ℝ) : lg (-x) = lg x := by
  unfold lg
  rw [neg_neg, Real.exp_neg]
  have := Real.exp_pos x
  field_simp
  ring

private theorem lg_one : HI lg 1 := by
  have h : HIs (Ioi 0) (fun t : ℝ => 1 / (1 + t) ^ 2) 1 := by
    have hd : ∀ t ∈ Ici (0 : ℝ), HasDerivAt (fun t : ℝ => -(1 + t)⁻¹) (1 / (1 + t) ^ 2) t := by
      intro t ht
      have ht : 0 ≤ t := ht
      have := (((hasDerivAt_id t).const_add 1).inv (by simp; linarith)).neg
      refine this.congr_deriv ?_
      simp only [id_eq]; field_simp
    have hp : ∀ t ∈ Ioi (0 : ℝ), 0 ≤ 1 / (1 + t) ^ 2 := fun t _ => by positivity
    have hl : Tendsto (fun t : ℝ => -(1 + t)⁻¹) atTop (𝓝 0) := by
      have : Tendsto (fun t : ℝ => (1 + t)⁻¹) atTop (𝓝 0) :=
        tendsto_inv_atTop_zero.comp (tendsto_atTop_add_const_left _ _ tendsto_id)
      simpa using this.neg
    refine ⟨integrableOn_Ioi_deriv_of_nonneg' hd hp hl, ?_⟩
    rw [integral_Ioi_of_hasDerivAt_of_nonneg' hd hp hl]; norm_num
  refine (HIs.exp.mp h).neg.congr fun x => ?_
  unfold lg; ring

private theorem sumCast {f g : ℕ → ℝ} {a b : ℝ} (h : HasSum f a) (e : ∀ i, f i = g i) (e2 : a = b) : HasSum g b := by
  obtain rfl : f = g := funext e
  exact e2 ▸ h

private theorem alternating : HasSum (fun n : ℕ => (-1 : ℝ) ^ (n + 1) / (n : ℝ) ^ 2) (Real.pi ^ 2 / 12) := by
  have hz := hasSum_zeta_two
  have he : HasSum (fun k : ℕ => 1 / ((2 * k : ℕ) : ℝ) ^ 2) (Real.pi ^ 2 / 24) := by
    refine sumCast (hz.mul_left (1 / 4)) (fun k => ?_) (by ring)
    push_cast; rw [mul_pow]; ring
  have hs : Summable fun k : ℕ => 1 / ((2 * k + 1 : ℕ) : ℝ) ^ 2 :=
    hz.summable.comp_injective (i := fun k : ℕ => 2 * k + 1) (fun a b h => by simpa using h)
  obtain ⟨v, ho⟩ := hs
  have hv : v = Real.pi ^ 2 / 8 := by
    have := (HasSum.even_add_odd (f := fun n : ℕ => 1 / (n : ℝ) ^ 2) he ho).unique hz
    linarith
  subst hv
  have h2 := HasSum.even_add_odd (f := fun n : ℕ => (-1 : ℝ) ^ (n + 1) / (n : ℝ) ^ 2) (m := -(Real.pi ^ 2 / 24))
    (m' := Real.pi ^ 2 / 8) ?_ ?_
  · exact sumCast h2 (fun _ => rfl) (by ring)
  · refine sumCast he.neg (fun k => ?_) rfl
    have : (-1 : ℝ) ^ (2 * k + 1) = -1 := by rw [pow_succ, pow_mul]; norm_num
    rw [this]; ring
  · refine sumCast ho (fun k => ?_) rfl
    have : (-1 : ℝ) ^ (2 * k + 1 + 1) = 1 := by rw [pow_succ, pow_succ, pow_mul]; norm_num
    rw [this]

private theorem lg_half : HIs (Ioi 0) (fun x => x ^ 2 * lg x) (Real.pi ^ 2 / 6) := by
  let F : ℕ → ℝ → ℝ := fun n x => -(x ^ 2 * (n * (-Real.exp (-x)) ^ n))
  have eF : ∀ (n : ℕ) (x : ℝ), F n x = (-1) ^ (n + 1) * n * (x ^ 2 * Real.exp (-(n * x))) := by
    intro n x
    simp only [F]
    rw [neg_pow, ← Real.exp_nat_mul, show (n : ℝ) * -x = -(n * x) by ring, pow_succ]; ring
  have nF : ∀ (n : ℕ) (x : ℝ), ‖F n x‖ = n * (x ^ 2 * Real.exp (-(n * x))) := by
    intro n x
    rw [eF, norm_mul, norm_mul, norm_pow, norm_neg, norm_one, one_pow, one_mul, Real.norm_of_nonneg (by positivity),
      Real.norm_of_nonneg (by positivity)]
  have base : ∀ n : ℕ, HIs (Ioi 0) (fun x => n * (x ^ 2 * Real.exp (-(n * x)))) (2 / (n : ℝ) ^ 2) := by
    intro n
    rcases Nat.eq_zero_or_pos n with rfl | hn
    · refine ⟨?_, ?_⟩
      · simp
      · simp
    · have hn : (0 : ℝ) < n := by exact_mod_cast hn
      exact ((expInt hn).2.2.cmul n).val (by field_simp)
  have hi : ∀ n, HIs (Ioi 0) (F n) (2 * ((-1) ^ (n + 1) / (n : ℝ) ^ 2)) := by
    intro n
    refine ((base n).cmul ((-1) ^ (n + 1))).congr measurableSet_Ioi (fun x _ => ?_) |>.val (by ring)
    rw [eF]; ring
  have hsum : Summable fun n => ∫ x in Ioi 0, ‖F n x‖ := by
    simp only [nF]
    have : (fun n : ℕ => ∫ x in Ioi (0 : ℝ), n * (x ^ 2 * Real.exp (-(n * x)))) = fun n : ℕ => 2 * (1 / (n : ℝ) ^ 2) := by
      funext n; rw [(base n).2]; ring
    rw [this]
    exact hasSum_zeta_two.summable.mul_left 2
  have hF := hasSum_integral_of_summable_integral_norm (μ := volume.restrict (Ioi 0)) (fun n => (hi n).1) hsum
  have ht : ∀ x ∈ Ioi (0 : ℝ), HasSum (fun n => F n x) (x ^ 2 * lg x) := by
    intro x hx
    have hx : 0 < x := hx
    have hr : ‖-Real.exp (-x)‖ < 1 := by
      rw [norm_neg, Real.norm_of_nonneg (by positivity)]
      exact (Real.exp_lt_one_iff).mpr (by linarith)
    have := ((hasSum_coe_mul_geometric_of_norm_lt_one hr).mul_left (x ^ 2)).neg
    refine sumCast this (fun _ => rfl) ?_
    unfold lg
    rw [sub_neg_eq_add]; ring
  have et : ∀ x ∈ Ioi (0 : ℝ), ∑' n, F n x = x ^ 2 * lg x := fun x hx => (ht x hx).tsum_eq
  refine ⟨?_, ?_⟩
  · have hm : AEStronglyMeasurable (fun x => x ^ 2 * lg x) (volume.restrict (Ioi 0)) := by
      unfold lg; fun_prop
    refine ⟨hm, ?_⟩
    have h1 : ∫⁻ x in Ioi (0 : ℝ), ‖x ^ 2 * lg x‖ₑ ≤ ∫⁻ x in Ioi (0 : ℝ), ∑' n, ‖F n x‖ₑ := by
      refine setLIntegral_mono' measurableSet_Ioi fun x hx => ?_
      rw [← et x hx]
      exact enorm_tsum_le_tsum_enorm
    refine lt_of_le_of_lt h1 ?_
    rw [lintegral_tsum fun n => (hi n).1.1.enorm]
    have h2 : ∀ n, ∫⁻ x in Ioi (0 : ℝ), ‖F n x‖ₑ = ENNReal.ofReal (∫ x in Ioi (0 : ℝ), ‖F n x‖) := fun n =>
      (ofReal_integral_norm_eq_lintegral_enorm (hi n).1).symm
    simp only [h2]
    rw [← ENNReal.ofReal_tsum_of_nonneg (fun n => integral_nonneg fun x => norm_nonneg _) hsum]
    exact ENNReal.ofReal_lt_top
  · rw [setIntegral_congr_fun measurableSet_Ioi et] at hF
    simp only [(hi _).2] at hF
    have := hF.unique (alternating.mul_left 2)
    rw [this]; ring

theorem logistic {s : ℝ} (hs : 0 < s) (m : ℝ) :
    HasMoments (ofPdf (logisticPdf m s)) m (s ^ 2 * Real.pi ^ 2 / 3) := by
  have hr : Raw lg 0 (2 * (Real.pi ^ 2 / 6)) := by
    refine Raw.even (by unfold lg; fun_prop) (fun x => by unfold lg; positivity) lg_even lg_one ?_
    exact lg_half.sym fun x => by rw [lg_even]; ring
  have h := ((hr.affine m hs).congr (g := logisticPdf m s) fun x => ?_).moments
  · convert h using 1
    · ring
    · ring
  · unfold logisticPdf lg
    have := Real.exp_pos (-((x - m) / s))
    field_simp

/-! ## StudentT -/

private theorem HI.lint {g : ℝ → ℝ} {c : ℝ} {μ : Measure ℝ} (hm : AEStronglyMeasurable g μ) (h0 : 0 ≤ᵐ[μ] g) (hc : 0 ≤ c)
    (h : ∫⁻ x, ENNReal.ofReal (g x) ∂μ = ENNReal.ofReal c) : Integrable g μ ∧ ∫ x, g x ∂μ = c := by
  have hi : Integrable g μ := by
    refine ⟨hm, ?_⟩
    rw [hasFiniteIntegral_iff_ofReal h0, h]
    exact ENNReal.ofReal_lt_top
  refine ⟨hi, ?_⟩
  rw [integral_eq_lintegral_of_nonneg_ae h0 hm, h, ENNReal.toReal_ofReal hc]

theorem tonelli {K : ℝ → ℝ → ℝ} {A B : ℝ → ℝ} {c : ℝ} (hK : Measurable (Function.uncurry K)) (h0 : ∀ x, ∀ t ∈ Ioi (0 : ℝ), 0 ≤ K x t)
    (hm : Measurable A) (hA : ∀ x, HIs (Ioi 0) (K x) (A x)) (hB : ∀ t ∈ Ioi (0 : ℝ), HI (fun x => K x t) (B t))
    (hc : HIs (Ioi 0) B c) : HI A c := by
  have A0 : ∀ x, 0 ≤ A x := fun x => by
    rw [← (hA x).2]; exact setIntegral_nonneg measurableSet_Ioi (h0 x)
  have B0 : ∀ t ∈ Ioi (0 : ℝ), 0 ≤ B t := fun t ht => by
    rw [← (hB t ht).2]; exact integral_nonneg fun x => h0 x t ht
  have c0 : 0 ≤ c := by rw [← hc.2]; exact setIntegral_nonneg measurableSet_Ioi B0
  refine HI.lint hm.aestronglyMeasurable (Eventually.of_forall A0) c0 ?_
  have e1 : ∀ x, ENNReal.ofReal (A x) = ∫⁻ t in Ioi (0 : ℝ), ENNReal.ofReal (K x t) := fun x => by
    rw [← (hA x).2]
    refine ofReal_integral_eq_lintegral_ofReal (hA x).1 ?_
    exact (ae_restrict_iff' measurableSet_Ioi).mpr (Eventually.of_forall fun t ht => h0 x t ht)
  have e2 : ∀ t ∈ Ioi (0 : ℝ), ∫⁻ x, ENNReal.ofReal (K x t) = ENNReal.ofReal (B t) := fun t ht => by
    rw [← (hB t ht).2]
    exact (ofReal_integral_eq_lintegral_ofReal (hB t ht).1 (Eventually.of_forall fun x => h0 x t ht)).symm
  simp only [e1]
  rw [lintegral_lintegral_swap (f := fun x t => ENNReal.ofReal (K x t)) (by
    exact (ENNReal.measurable_ofReal.comp hK).aemeasurable)]
  rw [setLIntegral_congr_fun measurableSet_Ioi e2, ← hc.2]
  refine (ofReal_integral_eq_lintegral_ofReal hc.1 ?_).symm
  exact (ae_restrict_iff' measurableSet_Ioi).mpr (Eventually.of_forall B0)

theorem cauchyInt {a : ℝ} (ha : 1 / 2 < a) :
    HI (fun x : ℝ => (1 + x ^ 2) ^ (-a)) (√Real.pi * Real.Gamma (a - 1 / 2) / Real.Gamma a) := by
  have ha0 : 0 < a := by linarith
  have hG := Real.Gamma_pos_of_pos ha0
  have h : HI (fun x : ℝ => Real.Gamma a / (1 + x ^ 2) ^ a) (√Real.pi * (Real.Gamma (a - 1 / 2) / 1 ^ (a - 1 / 2))) := by
    refine tonelli (K := fun x t => t ^ (a - 1) * Real.exp (-((1 + x ^ 2) * t)))
      (B := fun t => √Real.pi * (t ^ (a - 1 / 2 - 1) * Real.exp (-(1 * t)))) ?_ ?_ ?_ ?_ ?_ ?_
    · unfold Function.uncurry; fun_prop
    · intro x t ht
      have ht : 0 < t := ht
      positivity
    · fun_prop
    · intro x
      exact gammaInt ha0 (by positivity)
    · intro t ht
      have ht : 0 < t := ht
      have h1 : HI (fun x => Real.exp (-t * x ^ 2)) √(Real.pi / t) := ⟨integrable_exp_neg_mul_sq ht, integral_gaussian t⟩
      refine (h1.cmul (t ^ (a - 1) * Real.exp (-t))).congr (fun x => ?_) |>.val ?_
      · rw [mul_assoc, ← Real.exp_add]; congr 2; ring
      · rw [Real.sqrt_div Real.pi_pos.le, show a - 1 / 2 - 1 = a - 1 - 1 / 2 by ring, Real.rpow_sub ht (a - 1), Real.sqrt_eq_rpow t, one_mul]
        ring
    · exact (gammaInt (by linarith) one_pos).cmul _
  refine (h.cmul (1 / Real.Gamma a)).congr (fun x => ?_) |>.val ?_
  · rw [Real.rpow_neg (by positivity)]; field_simp
  · rw [Real.one_rpow]; ring

private theorem cancel {p q r : ℝ} (hp : 0 < p) (hq : 0 < q) (hr : 0 < r) : p / (q * r) * (q * r / p) = 1 := by
  field_simp

theorem studentT {n s : ℝ} (hn : 2 < n) (hs : 0 < s) (m : ℝ) :
    HasMoments (ofPdf (studentPdf n m s)) m (s ^ 2 * n / (n - 2)) := by
  set a := (n + 1) / 2 with ha
  have ha2 : 3 / 2 < a := by rw [ha]; linarith
  have hG := Real.Gamma_pos_of_pos (show 0 < a by linarith)
  have hH := Real.Gamma_pos_of_pos (show 0 < a - 1 / 2 by linarith)
  have hpi := Real.sqrt_pos.mpr Real.pi_pos
  have hn0 : 0 < n := by linarith
  have hsn := Real.sqrt_pos.mpr hn0
  have i0 := (cauchyInt (show 1 / 2 < a by linarith)).cmul (Real.Gamma a / (√Real.pi * Real.Gamma (a - 1 / 2)))
  have i1 := (cauchyInt (show 1 / 2 < a - 1 by linarith)).cmul (Real.Gamma a / (√Real.pi * Real.Gamma (a - 1 / 2)))
  have hr : Raw (fun x => Real.Gamma a / (√Real.pi * Real.Gamma (a - 1 / 2)) * (1 + x ^ 2) ^ (-a)) 0 (1 / (n - 2)) := by
    refine Raw.even (by fun_prop) (fun x => by positivity) (fun x => by rw [neg_sq]) (i0.val (cancel hG hpi hH)) ?_
    refine (i1.add (i0.cmul (-1))).congr (fun x => ?_) |>.val ?_
    · have hx : 0 < 1 + x ^ 2 := by positivity
      rw [show -(a - 1) = -a + 1 by ring, Real.rpow_add_one hx.ne']; ring
    · have g1 : Real.Gamma a = (a - 1) * Real.Gamma (a - 1) := by
        have := Real.Gamma_add_one (show a - 1 ≠ 0 by intro h; linarith)
        rwa [sub_add_cancel] at this
      have g2 : Real.Gamma (a - 1 / 2) = (a - 3 / 2) * Real.Gamma (a - 1 - 1 / 2) := by
        have := Real.Gamma_add_one (show a - 3 / 2 ≠ 0 by intro h; linarith)
        rw [show a - 3 / 2 + 1 = a - 1 / 2 by ring] at this
        rw [this, show a - 1 - 1 / 2 = a - 3 / 2 by ring]
      have p1 := Real.Gamma_pos_of_pos (show 0 < a - 1 by linarith)
      have p2 := Real.Gamma_pos_of_pos (show 0 < a - 1 - 1 / 2 by linarith)
      have e : a - 3 / 2 = (n - 2) / 2 := by rw [ha]; ring
      have e' : a - 1 = (n - 1) / 2 := by rw [ha]; ring
      have n2 : n - 2 ≠ 0 := by intro h; linarith
      have n1 : n - 1 ≠ 0 := by intro h; linarith
      have q1 : Real.Gamma a / (√Real.pi * Real.Gamma (a - 1 / 2)) * (√Real.pi * Real.Gamma (a - 1 - 1 / 2) / Real.Gamma (a - 1)) =
          (n - 1) / (n - 2) := by
        rw [g1, g2]
        generalize Real.Gamma (a - 1 - 1 / 2) = y at p2 ⊢
        generalize Real.Gamma (a - 1) = x at p1 ⊢
        rw [e, e']
        field_simp
      have q2 : Real.Gamma a / (√Real.pi * Real.Gamma (a - 1 / 2)) * (√Real.pi * Real.Gamma (a - 1 / 2) / Real.Gamma a) = 1 :=
        cancel hG hpi hH
      rw [q1, q2]; field_simp; ring
  have h := ((hr.affine m (show 0 < s * √n by positivity)).congr (g := studentPdf n m s) fun x => ?_).moments
  · convert h using 1
    · ring
    · have : (s * √n) ^ 2 = s ^ 2 * n := by rw [mul_pow, Real.sq_sqrt hn0.le]
      rw [this]; ring
  · unfold studentPdf
    rw [show a - 1 / 2 = n / 2 by rw [ha]; ring, Real.sqrt_mul hn0.le, show -(n + 1) / 2 = -a by rw [ha]; ring, ← ha]
    have : ((x - m) / (s * √n)) ^ 2 = ((x - m) / s) ^ 2 / n := by
      rw [div_pow, div_pow, mul_pow, Real.sq_sqrt hn0.le]; field_simp
    rw [this]
    have hH' : 0 < Real.Gamma (n / 2) := Real.Gamma_pos_of_pos (by linarith)
    field_simp

/-! ## Wald -/

private theorem cosh_exp {H : ℝ → ℝ} {r c : ℝ} (hm : Measurable H) (h0 : ∀ z, 0 ≤ H z) (he : ∀ z, H (-z) = H z)
    (h : HI (fun z => Real.cosh (r * z) * H z) c) : HI (fun z => Real.exp (r * z) * H z) c := by
  have hi : Integrable fun z => Real.exp (r * z) * H z := by
    refine (h.1.const_mul 2).mono' (by fun_prop) (Eventually.of_forall fun z => ?_)
    rw [Real.norm_of_nonneg (mul_nonneg (Real.exp_pos _).le (h0 z)), ← mul_assoc]
    refine mul_le_mul_of_nonneg_right ?_ (h0 z)
    rw [Real.cosh_eq]
    have := Real.exp_pos (-(r * z))
    linarith
  refine ⟨hi, ?_⟩
  have hn := integral_neg_eq_self (fun z => Real.exp (r * z) * H z) volume
  simp only [he] at hn
  have hin : Integrable fun z => Real.exp (r * -z) * H z := by simpa only [he] using hi.comp_neg
  have hs := integral_add hi hin
  have : (fun z => Real.exp (r * z) * H z + Real.exp (r * -z) * H z) = fun z => 2 * (Real.cosh (r * z) * H z) := by
    funext z
    rw [Real.cosh_eq, show r * -z = -(r * z) by ring]; ring
  rw [this, integral_const_mul, h.2, hn] at hs
  linarith

private theorem sinh_sub {g : ℝ → ℝ} {c : ℝ} (h : HI g c) :
    HI (fun z => Real.cosh (1 / 2 * z) * g (2 * Real.sinh (1 / 2 * z))) c := by
  have hd : ∀ x ∈ (univ : Set ℝ), HasDerivWithinAt (fun z => 2 * Real.sinh (1 / 2 * z)) (Real.cosh (1 / 2 * x)) univ x := by
    intro x _
    have := (((hasDerivAt_id x).const_mul (1 / 2)).sinh).const_mul 2
    refine (this.congr_deriv ?_).hasDerivWithinAt
    simp; ring
  have hi : InjOn (fun z => 2 * Real.sinh (1 / 2 * z)) univ := by
    intro x _ y _ hxy
    have : Real.sinh (1 / 2 * x) = Real.sinh (1 / 2 * y) := by simpa using hxy
    have := Real.sinh_injective this
    linarith
  have e : (fun z => 2 * Real.sinh (1 / 2 * z)) '' univ = univ := by
    rw [image_univ, range_eq_univ]
    intro y
    obtain ⟨w, hw⟩ := Real.sinh_surjective (y / 2)
    exact ⟨2 * w, by simp only; rw [show 1 / 2 * (2 * w) = w by ring, hw]; ring⟩
  have h1 := integrableOn_image_iff_integrableOn_abs_deriv_smul MeasurableSet.univ hd hi g
  have h2 := integral_image_eq_integral_abs_deriv_smul MeasurableSet.univ hd hi g
  rw [e] at h1 h2
  simp only [abs_of_pos (Real.cosh_pos _), smul_eq_mul, integrableOn_univ, Measure.restrict_univ] at h1 h2
  exact ⟨h1.mp h.1, by rw [← h2, h.2]⟩

private theorem waldRaw {k : ℝ} (hk : 0 < k) : Raw (waldPdf 1 k) 1 (1 + 1 / k) := by
  have hpi := Real.pi_pos
  have hN := normalRaw (s := √(1 / k)) (Real.sqrt_pos.mpr (by positivity)) 0
  have hsq : √(1 / k) ^ 2 = 1 / k := Real.sq_sqrt (by positivity)
  let H : ℝ → ℝ := fun z => normalPdf 0 √(1 / k) (2 * Real.sinh (1 / 2 * z))
  have Hm : Measurable H := hN.meas.comp (by fun_prop)
  have H0 : ∀ z, 0 ≤ H z := fun z => hN.nonneg _
  have He : ∀ z, H (-z) = H z := by
    intro z
    simp only [H, normalPdf]
    rw [show 1 / 2 * -z = -(1 / 2 * z) by ring, Real.sinh_neg]
    congr 2; ring
  have c0 : HI (fun z => Real.cosh (1 / 2 * z) * H z) 1 := sinh_sub hN.one
  have c2 : HI (fun z => Real.cosh (3 / 2 * z) * H z) (1 + 1 / k) := by
    have h2 := sinh_sub hN.second
    refine (c0.add h2).congr (fun z => ?_) |>.val (by rw [hsq]; ring)
    rw [show 3 / 2 * z = 3 * (1 / 2 * z) by ring, Real.cosh_three_mul]
    have := Real.cosh_sq (1 / 2 * z)
    simp only [H]
    linear_combination (-4 * Real.cosh (1 / 2 * z) * normalPdf 0 √(1 / k) (2 * Real.sinh (1 / 2 * z))) * this
  have c0' : HI (fun z => Real.cosh (-1 / 2 * z) * H z) 1 := c0.congr fun z => by
    rw [show -1 / 2 * z = -(1 / 2 * z) by ring, Real.cosh_neg]
  have j0 := cosh_exp Hm H0 He c0'
  have j1 := cosh_exp Hm H0 He c0
  have j2 := cosh_exp Hm H0 He c2
  let g : ℝ → ℝ := fun x => (k / (2 * Real.pi)) ^ (1 / 2 : ℝ) * x ^ (-3 / 2 : ℝ) * Real.exp (-(k / (2 * x)) * ((x - 1) / 1) ^ 2)
  have key : ∀ z, Real.exp z * g (Real.exp z) = Real.exp (-1 / 2 * z) * H z := by
    intro z
    have hz := Real.exp_pos z
    have e1 : Real.exp z * Real.exp z ^ (-3 / 2 : ℝ) = Real.exp (-1 / 2 * z) := by
      rw [← Real.exp_mul, ← Real.exp_add]; congr 1; ring
    have e2 : (2 * Real.sinh (1 / 2 * z)) ^ 2 = (Real.exp z - 1) ^ 2 / Real.exp z := by
      rw [Real.sinh_eq]
      have a1 : Real.exp z = Real.exp (1 / 2 * z) * Real.exp (1 / 2 * z) := by rw [← Real.exp_add]; congr 1; ring
      have a2 : Real.exp (-(1 / 2 * z)) = (Real.exp (1 / 2 * z))⁻¹ := Real.exp_neg _
      have a3 := Real.exp_pos (1 / 2 * z)
      rw [a1, a2]; field_simp
    have e3 : (k / (2 * Real.pi)) ^ (1 / 2 : ℝ) = 1 / (√(1 / k) * √(2 * Real.pi)) := by
      rw [← Real.sqrt_eq_rpow, ← Real.sqrt_mul (by positivity), ← Real.sqrt_one, ← Real.sqrt_div (by positivity)]
      congr 1
      rw [Real.sqrt_one]; field_simp
    simp only [g, H, normalPdf]
    rw [sub_zero, hsq, e2, e3]
    rw [show Real.exp (-1 / 2 * z) * (1 / (√(1 / k) * √(2 * Real.pi)) * Real.exp (-((Real.exp z - 1) ^ 2 / Real.exp z) / (2 * (1 / k)))) =
      1 / (√(1 / k) * √(2 * Real.pi)) * Real.exp (-1 / 2 * z) * Real.exp (-((Real.exp z - 1) ^ 2 / Real.exp z) / (2 * (1 / k))) by ring,
      ← e1]
    have e4 : -(k / (2 * Real.exp z)) * ((Real.exp z - 1) / 1) ^ 2 = -((Real.exp z - 1) ^ 2 / Real.exp z) / (2 * (1 / k)) := by
      field_simp
    rw [e4]; ring
  have i0 : HIs (Ioi 0) g 1 := HIs.exp.mpr (j0.congr fun z => (key z).symm)
  have i1 : HIs (Ioi 0) (fun x => x * g x) 1 := HIs.exp.mpr (j1.congr fun z => by
    rw [mul_left_comm, key, ← mul_assoc, ← Real.exp_add]; congr 2; ring)
  have i2 : HIs (Ioi 0) (fun x => x ^ 2 * g x) (1 + 1 / k) := HIs.exp.mpr (j2.congr fun z => by
    rw [mul_left_comm, key, ← mul_assoc, ← Real.exp_nat_mul, ← Real.exp_add]; congr 2; push_cast; ring)
  refine (Raw.on measurableSet_Ioi (g := g) (by fun_prop) (fun x hx => ?_) i0 i1 i2).congr fun x => ?_
  · have hx : 0 < x := hx
    positivity
  · simp only [indicator, mem_Ioi, waldPdf, g]

theorem wald {m l : ℝ} (hm : 0 < m) (hl : 0 < l) : HasMoments (ofPdf (waldPdf m l)) m (m ^ 3 / l) := by
  have h := (((waldRaw (show 0 < l / m by positivity)).affine 0 hm).congr (g := waldPdf m l) fun x => ?_).moments
  · convert h using 1
    · ring
    · field_simp; ring
  · unfold waldPdf
    rw [sub_zero]
    by_cases hx : 0 < x
    · have hxm : 0 < x / m := by positivity
      rw [if_pos hx, if_pos hxm]
      have e1 : (l / m / (2 * Real.pi)) ^ (1 / 2 : ℝ) = (l / (2 * Real.pi)) ^ (1 / 2 : ℝ) / m ^ (1 / 2 : ℝ) := by
        rw [← Real.div_rpow (by positivity) hm.le]; congr 1; field_simp
      have e2 : (x / m) ^ (-3 / 2 : ℝ) = x ^ (-3 / 2 : ℝ) * (m * m ^ (1 / 2 : ℝ)) := by
        rw [Real.div_rpow hx.le hm.le, show (-3 / 2 : ℝ) = -(1 + 1 / 2) by norm_num, Real.rpow_neg hm.le, Real.rpow_add hm,
          Real.rpow_one]
        field_simp
      have e3 : -(l / m / (2 * (x / m))) * ((x / m - 1) / 1) ^ 2 = -(l / (2 * x)) * ((x - m) / m) ^ 2 := by
        field_simp
      have := Real.rpow_pos_of_pos hm (1 / 2)
      rw [e1, e2, e3]; field_simp
    · have hxm : ¬ 0 < x / m := by
        rw [not_lt] at hx ⊢
        exact div_nonpos_of_nonpos_of_nonneg hx hm.le
      rw [if_neg hx, if_neg hxm, mul_zero]

end Verif.Law
