import Verif.Spec.SkewLaw
import Verif.Spec.MaxentHdi
import Verif.Lemmas.LocScale
import Verif.Lemmas.LawNormal
import Mathlib.Analysis.SpecialFunctions.Gaussian.GaussianIntegral
import Mathlib.MeasureTheory.Integral.IntegralEqImproper

/-!
# SkewNormal by its documented density
-/

namespace Verif.SkewLaw
open MeasureTheory Set Filter Topology Verif.Spec Verif.Law Verif.LocScale

/-- the standard normal density -/
noncomputable abbrev phi : ℝ → ℝ := normalPdf 0 1

theorem phi_eq (x : ℝ) : phi x = (√(2 * Real.pi))⁻¹ * Real.exp (-(x ^ 2 / 2)) := by
  simp [phi, normalPdf, neg_div]

theorem phi_peak : Peak phi := peak_fam .normal trivial

theorem phi_pos (x : ℝ) : 0 < phi x := by rw [phi_eq]; positivity

theorem phi_cont : Continuous phi := phi_peak.cont

theorem phi_deriv (x : ℝ) : HasDerivAt phi (-x * phi x) x := by
  have h : HasDerivAt (fun x : ℝ => (√(2 * Real.pi))⁻¹ * Real.exp (-(x ^ 2 / 2)))
      ((√(2 * Real.pi))⁻¹ * (Real.exp (-(x ^ 2 / 2)) * -(2 * x / 2))) x := by
    have := ((((hasDerivAt_pow 2 x).div_const 2).neg).exp).const_mul (√(2 * Real.pi))⁻¹
    simpa using this
  rw [show phi = fun x : ℝ => (√(2 * Real.pi))⁻¹ * Real.exp (-(x ^ 2 / 2)) from funext phi_eq]
  refine h.congr_deriv ?_
  ring

theorem cdf_upTo : stdNormalCdf = upTo phi := rfl

theorem Phi_lt_one (x : ℝ) : stdNormalCdf x < 1 := by
  have h := upTo_mono phi_peak (show x < x + 1 by linarith)
  have h2 : upTo phi (x + 1) ≤ 1 := by
    rw [← phi_peak.one]
    exact setIntegral_le_integral phi_peak.int (ae_of_all _ fun y => (phi_pos y).le)
  exact h.trans_le h2

theorem Phi_neg (x : ℝ) : stdNormalCdf (-x) = 1 - stdNormalCdf x := upTo_neg phi_peak x

theorem Phi_pos (x : ℝ) : 0 < stdNormalCdf x := by
  have := Phi_lt_one (-x)
  rw [Phi_neg] at this
  linarith

theorem Phi_zero : stdNormalCdf 0 = 1 / 2 := upTo_zero phi_peak

theorem Phi_deriv (x : ℝ) : HasDerivAt stdNormalCdf (phi x) x := by
  have e : stdNormalCdf = fun y => stdNormalCdf 0 + ∫ t in (0 : ℝ)..y, phi t := by
    funext y
    rw [← intervalIntegral.integral_Iic_sub_Iic phi_peak.int.integrableOn phi_peak.int.integrableOn]
    simp [stdNormalCdf]
  rw [e]
  exact (intervalIntegral.integral_hasDerivAt_right (phi_cont.intervalIntegrable _ _)
    phi_cont.aestronglyMeasurable.stronglyMeasurableAtFilter phi_cont.continuousAt).const_add _

theorem Phi_cont : Continuous stdNormalCdf := continuous_iff_continuousAt.2 fun x => (Phi_deriv x).continuousAt

theorem Phi_mono : StrictMono stdNormalCdf := upTo_mono phi_peak

theorem Phi_top : Tendsto stdNormalCdf atTop (𝓝 1) := by
  have h := intervalIntegral_tendsto_integral phi_peak.int (a := fun t : ℝ => -t) (b := fun t : ℝ => t) tendsto_neg_atTop_atBot tendsto_id
  rw [phi_peak.one] at h
  have e : (fun t : ℝ => ∫ x in (-t)..t, phi x) = fun t => 2 * stdNormalCdf t - 1 := by
    funext t
    rw [← intervalIntegral.integral_Iic_sub_Iic phi_peak.int.integrableOn phi_peak.int.integrableOn]
    have := Phi_neg t
    unfold stdNormalCdf at *
    rw [this]; ring
  rw [e] at h
  have h2 := (h.add_const 1).div_const 2
  refine (h2.congr fun t => ?_).trans (by norm_num)
  ring

theorem phi_bot : Tendsto phi atBot (𝓝 0) := by
  have h : Tendsto phi atTop (𝓝 0) := by
    rw [show phi = fun x : ℝ => (√(2 * Real.pi))⁻¹ * Real.exp (-(x ^ 2 / 2)) from funext phi_eq, ← mul_zero (√(2 * Real.pi))⁻¹]
    refine Tendsto.const_mul _ (Real.tendsto_exp_neg_atTop_nhds_zero.comp ?_)
    exact (tendsto_pow_atTop two_ne_zero).atTop_div_const two_pos
  have := h.comp tendsto_neg_atBot_atTop
  refine this.congr fun x => ?_
  exact phi_peak.even x

/-- Mills: the lower tail is below `phi y / -y` -/
theorem mills (y : ℝ) : 0 < phi y + y * stdNormalCdf y := by
  have hi : Integrable fun t => -t * phi t := by
    have := (normalRaw one_pos 0).first.1.neg
    refine this.congr (ae_of_all _ fun t => ?_)
    simp
  have h0 : ∀ y, 0 ≤ phi y + y * stdNormalCdf y := by
    intro y
    have e1 := integral_Iic_of_hasDerivAt_of_tendsto' (a := y) (f := phi) (f' := fun t => -t * phi t) (m := 0)
      (fun t _ => phi_deriv t) hi.integrableOn phi_bot
    rw [sub_zero] at e1
    have e2 : y * stdNormalCdf y = ∫ t in Iic y, y * phi t := by rw [integral_const_mul]; rfl
    rw [← e1, e2, ← integral_add hi.integrableOn (phi_peak.int.integrableOn.const_mul y)]
    refine setIntegral_nonneg measurableSet_Iic fun t ht => ?_
    have := phi_pos t
    have : t ≤ y := ht
    nlinarith
  have hd : ∀ y, HasDerivAt (fun y => phi y + y * stdNormalCdf y) (stdNormalCdf y) y := by
    intro y
    refine ((phi_deriv y).add ((hasDerivAt_id y).mul (Phi_deriv y))).congr_deriv ?_
    simp
  have hm : StrictMono fun y => phi y + y * stdNormalCdf y :=
    strictMono_of_hasDerivAt_pos hd fun y => Phi_pos y
  exact (h0 (y - 1)).trans_lt (hm (by linarith : y - 1 < y))

/-- the ratio of density and distribution function falls -/
theorem ratio_anti : StrictAnti fun y => phi y / stdNormalCdf y := by
  have hd : ∀ y, HasDerivAt (fun y => phi y / stdNormalCdf y)
      ((-y * phi y * stdNormalCdf y - phi y * phi y) / stdNormalCdf y ^ 2) y := fun y =>
    (phi_deriv y).div (Phi_deriv y) (Phi_pos y).ne'
  refine strictAnti_of_hasDerivAt_neg hd fun y => ?_
  have h1 := mills y
  have h2 := phi_pos y
  have h3 := Phi_pos y
  apply div_neg_of_neg_of_pos _ (by positivity)
  nlinarith

/-! ### SkewNormal -/

/-- the standard density -/
noncomputable def skew (al x : ℝ) : ℝ := 2 * stdNormalCdf (x * al) * phi x

theorem skew_pos (al x : ℝ) : 0 < skew al x := mul_pos (mul_pos two_pos (Phi_pos _)) (phi_pos x)

theorem skew_cont (al : ℝ) : Continuous (skew al) := by
  unfold skew
  exact (continuous_const.mul (Phi_cont.comp (continuous_mul_const al))).mul phi_cont

theorem skew_deriv (al x : ℝ) :
    HasDerivAt (skew al) (2 * phi x * stdNormalCdf (x * al) * (al * (phi (x * al) / stdNormalCdf (x * al)) - x)) x := by
  have h1 : HasDerivAt (fun x => stdNormalCdf (x * al)) (phi (x * al) * al) x := by
    have := (Phi_deriv (x * al)).comp x ((hasDerivAt_id x).mul_const al)
    rw [one_mul] at this
    exact this
  have h := (h1.const_mul 2).mul (phi_deriv x)
  refine h.congr_deriv ?_
  have := (Phi_pos (x * al)).ne'
  field_simp
  ring

theorem skew_mode (al : ℝ) : ∃ c, (∀ x, x < c → 0 < al * (phi (x * al) / stdNormalCdf (x * al)) - x) ∧
    ∀ x, c < x → al * (phi (x * al) / stdNormalCdf (x * al)) - x < 0 := by
  set q : ℝ → ℝ := fun x => al * (phi (x * al) / stdNormalCdf (x * al)) - x with hq
  have hanti : StrictAnti q := by
    intro x y h
    have : al * (phi (y * al) / stdNormalCdf (y * al)) ≤ al * (phi (x * al) / stdNormalCdf (x * al)) := by
      rcases le_total 0 al with h0 | h0
      · exact mul_le_mul_of_nonneg_left (ratio_anti.antitone (mul_le_mul_of_nonneg_right h.le h0)) h0
      · exact mul_le_mul_of_nonpos_left (ratio_anti.antitone (mul_le_mul_of_nonpos_right h.le h0)) h0
    simp only [hq]
    linarith
  have hc : Continuous q := by
    have h1 : Continuous fun x : ℝ => phi (x * al) := phi_cont.comp (continuous_mul_const al)
    have h2 : Continuous fun x : ℝ => stdNormalCdf (x * al) := Phi_cont.comp (continuous_mul_const al)
    exact (continuous_const.mul (h1.div h2 fun x => (Phi_pos _).ne')).sub continuous_id
  set r0 := phi 0 / stdNormalCdf 0 with hr0
  have r0p : 0 < r0 := div_pos (phi_pos 0) (Phi_pos 0)
  have e0 : q 0 = al * r0 := by simp only [hq, zero_mul, sub_zero, hr0]
  have e1 : q (al * r0) = al * (phi (al * r0 * al) / stdNormalCdf (al * r0 * al) - r0) := by simp only [hq]; ring
  have hle : phi (al * r0 * al) / stdNormalCdf (al * r0 * al) ≤ r0 :=
    ratio_anti.antitone (by nlinarith [mul_nonneg (mul_self_nonneg al) r0p.le])
  obtain ⟨c, -, hcz⟩ : (0 : ℝ) ∈ q '' uIcc 0 (al * r0) := by
    refine intermediate_value_uIcc hc.continuousOn ?_
    rw [e0, e1, mem_uIcc]
    rcases le_total 0 al with h0 | h0
    · right
      exact ⟨mul_nonpos_of_nonneg_of_nonpos h0 (by linarith), by positivity⟩
    · left
      exact ⟨mul_nonpos_of_nonpos_of_nonneg h0 r0p.le, mul_nonneg_of_nonpos_of_nonpos h0 (by linarith)⟩
  exact ⟨c, fun x hx => by rw [← hcz]; exact hanti hx, fun x hx => by rw [← hcz]; exact hanti hx⟩

/-- an even weight is integrated as by the normal distribution -/
theorem even_weight (al : ℝ) {w : ℝ → ℝ} {c : ℝ} (hw : ∀ x, w (-x) = w x) (h : HI (fun x => w x * phi x) c) :
    HI (fun x => w x * skew al x) c := by
  have hi : Integrable fun x => stdNormalCdf (x * al) * (w x * phi x) := by
    refine h.1.bdd_mul (c := 1) (Phi_cont.comp (continuous_mul_const al)).aestronglyMeasurable (ae_of_all _ fun x => ?_)
    rw [Real.norm_of_nonneg (Phi_pos _).le]
    exact (Phi_lt_one _).le
  have H : HI (fun x => stdNormalCdf (x * al) * (w x * phi x)) _ := ⟨hi, rfl⟩
  have K := H.neg
  have S := H.add K
  have e : ∀ x, stdNormalCdf (x * al) * (w x * phi x) + stdNormalCdf (-x * al) * (w (-x) * phi (-x)) = w x * phi x := by
    intro x
    rw [hw, phi_peak.even, neg_mul, Phi_neg]
    ring
  have S' := S.congr e
  have := S'.2.symm.trans h.2
  refine (H.cmul 2).congr (fun x => ?_) |>.val (by linarith)
  unfold skew
  ring

theorem skew_first (al : ℝ) : HI (fun x => x * skew al x) (√(2 / Real.pi) * (al / √(1 + al ^ 2))) := by
  have hN := normalRaw one_pos (0 : ℝ)
  have h1 : ∀ x, HasDerivAt (fun x => stdNormalCdf (x * al)) (phi (x * al) * al) x := by
    intro x
    have := (Phi_deriv (x * al)).comp x ((hasDerivAt_id x).mul_const al)
    rw [one_mul] at this
    exact this
  have h2 : ∀ x, HasDerivAt (fun x => -phi x) (x * phi x) x := fun x => by
    refine (phi_deriv x).neg.congr_deriv ?_
    ring
  have hPc := Phi_cont.comp (continuous_mul_const al)
  have bdd : ∀ f : ℝ → ℝ, Integrable f → Integrable fun x => stdNormalCdf (x * al) * f x := by
    intro f hf
    refine hf.bdd_mul (c := 1) hPc.aestronglyMeasurable (ae_of_all _ fun x => ?_)
    rw [Real.norm_of_nonneg (Phi_pos _).le]
    exact (Phi_lt_one _).le
  have b0 : (0 : ℝ) < (1 + al ^ 2) / 2 := by positivity
  have G : HI (fun x => phi (x * al) * al * -phi x) (-al * (2 * Real.pi)⁻¹ * √(Real.pi / ((1 + al ^ 2) / 2))) := by
    have g : HI (fun x : ℝ => Real.exp (-((1 + al ^ 2) / 2) * x ^ 2)) (√(Real.pi / ((1 + al ^ 2) / 2))) :=
      ⟨integrable_exp_neg_mul_sq b0, integral_gaussian _⟩
    refine (g.cmul (-al * (2 * Real.pi)⁻¹)).congr fun x => ?_
    rw [phi_eq, phi_eq]
    have e1 : Real.exp (-((1 + al ^ 2) / 2) * x ^ 2) = Real.exp (-((x * al) ^ 2 / 2)) * Real.exp (-(x ^ 2 / 2)) := by
      rw [← Real.exp_add]; congr 1; ring
    have e2 : (2 * Real.pi)⁻¹ = (√(2 * Real.pi))⁻¹ * (√(2 * Real.pi))⁻¹ := by
      rw [← mul_inv, Real.mul_self_sqrt (by positivity)]
    rw [e1, e2]
    ring
  have key := integral_mul_deriv_eq_deriv_mul_of_integrable (u := fun x => stdNormalCdf (x * al)) (v := fun x => -phi x)
    (u' := fun x => phi (x * al) * al) (v' := fun x => x * phi x) (fun x _ => h1 x) (fun x _ => h2 x) (bdd _ hN.first.1) G.1 (bdd _ phi_peak.int.neg)
  have H : HI (fun x => stdNormalCdf (x * al) * (x * phi x)) (al * (2 * Real.pi)⁻¹ * √(Real.pi / ((1 + al ^ 2) / 2))) :=
    ⟨bdd _ hN.first.1, by
      rw [key]
      have := G.2
      simp only at this ⊢
      rw [this]; ring⟩
  refine (H.cmul 2).congr (fun x => by unfold skew; ring) |>.val ?_
  have hp := Real.pi_pos
  have s1 : √(Real.pi / ((1 + al ^ 2) / 2)) = √(2 * Real.pi) / √(1 + al ^ 2) := by
    rw [← Real.sqrt_div (by positivity)]; congr 1; field_simp
  have s2 : √(2 / Real.pi) = √(2 * Real.pi) / Real.pi := by
    rw [eq_div_iff hp.ne', ← Real.sqrt_sq hp.le, ← Real.sqrt_mul (by positivity), Real.sqrt_sq hp.le]
    congr 1; field_simp
  rw [s1, s2]
  have : √(1 + al ^ 2) ≠ 0 := by positivity
  field_simp

theorem skewRaw (al : ℝ) : Raw (skew al) (√(2 / Real.pi) * (al / √(1 + al ^ 2))) 1 where
  meas := (skew_cont al).measurable
  nonneg x := (skew_pos al x).le
  one := by
    have := even_weight al (w := fun _ => 1) (c := 1) (fun _ => rfl) ((normalRaw one_pos 0).one.congr fun x => (one_mul _).symm)
    exact this.congr fun x => one_mul _
  first := skew_first al
  second := by
    have := even_weight al (w := fun x => x ^ 2) (c := 0 ^ 2 + 1 ^ 2) (fun x => by ring) (normalRaw one_pos 0).second
    exact this.val (by norm_num)

theorem skew_std (al m : ℝ) {s : ℝ} (hs : 0 < s) : skewNormalPdf al m s = fun x => 1 / s * skew al ((x - m) / s) := by
  funext x
  simp only [skewNormalPdf, skew, phi, normalPdf, sub_zero, one_mul, one_pow, mul_one]
  have e : -(x - m) ^ 2 / (2 * s ^ 2) = -((x - m) / s) ^ 2 / 2 := by field_simp
  rw [e]
  field_simp

theorem skewNormal_moments (al m : ℝ) {s : ℝ} (hs : 0 < s) :
    HasMoments (ofPdf (skewNormalPdf al m s)) (skewNormalMean al m s) (skewNormalVar al s) := by
  have h := ((skewRaw al).affine m hs).moments
  rw [← skew_std al m hs] at h
  have hp := Real.pi_pos
  have e1 : m + s * (√(2 / Real.pi) * (al / √(1 + al ^ 2))) = skewNormalMean al m s := by unfold skewNormalMean; ring
  have e2 : m ^ 2 + 2 * m * s * (√(2 / Real.pi) * (al / √(1 + al ^ 2))) + s ^ 2 * 1 -
      (m + s * (√(2 / Real.pi) * (al / √(1 + al ^ 2)))) ^ 2 = skewNormalVar al s := by
    unfold skewNormalVar
    have q1 : √(2 / Real.pi) ^ 2 = 2 / Real.pi := Real.sq_sqrt (by positivity)
    have q2 : √(1 + al ^ 2) ^ 2 = 1 + al ^ 2 := Real.sq_sqrt (by positivity)
    have : s ^ 2 * (√(2 / Real.pi) * (al / √(1 + al ^ 2))) ^ 2 = s ^ 2 * (2 * al ^ 2 / ((al ^ 2 + 1) * Real.pi)) := by
      rw [mul_pow, div_pow, q1, q2, add_comm 1 (al ^ 2)]
      have : al ^ 2 + 1 ≠ 0 := by positivity
      field_simp
    linear_combination -this
  rwa [e2, e1] at h

/-! ### a single mode and a finite entropy -/

theorem Phi_below (y : ℝ) : phi (|y| + 1) ≤ stdNormalCdf y := by
  have hneg : ∀ z, z ≤ 0 → phi (z - 1) ≤ stdNormalCdf z := by
    intro z hz
    have h1 : stdNormalCdf z - stdNormalCdf (z - 1) = ∫ t in (z - 1)..z, phi t :=
      intervalIntegral.integral_Iic_sub_Iic phi_peak.int.integrableOn phi_peak.int.integrableOn
    have h2 : ∫ t in (z - 1)..z, phi (z - 1) ≤ ∫ t in (z - 1)..z, phi t := by
      refine intervalIntegral.integral_mono_on (by linarith) (by simp) (phi_cont.intervalIntegrable _ _) fun t ht => ?_
      rw [phi_eq, phi_eq]
      refine mul_le_mul_of_nonneg_left (Real.exp_le_exp.2 ?_) (by positivity)
      nlinarith [ht.1, ht.2]
    rw [intervalIntegral.integral_const, smul_eq_mul, sub_sub_cancel, one_mul] at h2
    linarith [Phi_pos (z - 1)]
  rcases le_total y 0 with h | h
  · rw [abs_of_nonpos h, show -y + 1 = -(y - 1) by ring, phi_peak.even]
    exact hneg y h
  · have h1 := hneg 0 le_rfl
    have h2 : phi (|y| + 1) ≤ phi (0 - 1) := by
      rw [phi_eq, phi_eq, abs_of_nonneg h]
      refine mul_le_mul_of_nonneg_left (Real.exp_le_exp.2 ?_) (by positivity)
      nlinarith
    exact h2.trans (h1.trans (Phi_mono.monotone h))

theorem skew_hump (al : ℝ) : ∃ c, Humped (skew al) c := by
  obtain ⟨c, h1, h2⟩ := skew_mode al
  have hr := skewRaw al
  refine ⟨c, skew_cont al, skew_pos al, ?_, ?_, hr.one.1, hr.one.2, ?_⟩
  · intro x y hxy hy
    refine strictMonoOn_of_deriv_pos (convex_Iic c) (skew_cont al).continuousOn (fun z hz => ?_)
      (show x ∈ Iic c from (hxy.le.trans hy)) (show y ∈ Iic c from hy) hxy
    rw [interior_Iic] at hz
    rw [(skew_deriv al z).deriv]
    have := phi_pos z
    have := Phi_pos (z * al)
    have := h1 z hz
    positivity
  · intro x y hx hxy
    refine strictAntiOn_of_deriv_neg (convex_Ici c) (skew_cont al).continuousOn (fun z hz => ?_)
      (show x ∈ Ici c from hx) (show y ∈ Ici c from hx.trans hxy.le) hxy
    rw [interior_Ici] at hz
    rw [(skew_deriv al z).deriv]
    have a1 := phi_pos z
    have a2 := Phi_pos (z * al)
    exact mul_neg_of_pos_of_neg (by positivity) (h2 z hz)
  · set L := |Real.log 2| + 2 * |Real.log (√(2 * Real.pi))⁻¹| + 1 with hL
    have i1 := (hr.one.1.const_mul L).add (hr.second.1.const_mul (1 / 2 + al ^ 2))
    refine i1.mono' ((skew_cont al).mul ((skew_cont al).log fun x => (skew_pos al x).ne')).aestronglyMeasurable
      (ae_of_all _ fun x => ?_)
    have hp := skew_pos al x
    simp only [Pi.add_apply]
    rw [Real.norm_eq_abs, abs_mul, abs_of_pos hp]
    have lphi : ∀ y, Real.log (phi y) = Real.log (√(2 * Real.pi))⁻¹ - y ^ 2 / 2 := by
      intro y
      rw [phi_eq, Real.log_mul (by positivity) (Real.exp_pos _).ne', Real.log_exp]; ring
    have b1 : |Real.log (stdNormalCdf (x * al))| ≤ |Real.log (√(2 * Real.pi))⁻¹| + (x ^ 2 * al ^ 2 + 1) := by
      have l1 : Real.log (stdNormalCdf (x * al)) ≤ 0 := Real.log_nonpos (Phi_pos _).le (Phi_lt_one _).le
      have l2 := Real.log_le_log (phi_pos _) (Phi_below (x * al))
      rw [lphi] at l2
      rw [abs_of_nonpos l1]
      have l3 := neg_abs_le (Real.log (√(2 * Real.pi))⁻¹)
      have l4 : (|x * al| + 1) ^ 2 / 2 ≤ x ^ 2 * al ^ 2 + 1 := by
        have := sq_abs (x * al)
        nlinarith [sq_nonneg (|x * al| - 1)]
      linarith
    have b2 : |Real.log (phi x)| ≤ |Real.log (√(2 * Real.pi))⁻¹| + x ^ 2 / 2 := by
      rw [lphi]
      refine (abs_sub _ _).trans ?_
      rw [abs_of_nonneg (show 0 ≤ x ^ 2 / 2 by positivity)]
    have e : Real.log (skew al x) = Real.log 2 + Real.log (stdNormalCdf (x * al)) + Real.log (phi x) := by
      unfold skew
      rw [Real.log_mul (mul_pos two_pos (Phi_pos _)).ne' (phi_pos x).ne', Real.log_mul two_ne_zero (Phi_pos _).ne']
    have b3 : |Real.log (skew al x)| ≤ L + (1 / 2 + al ^ 2) * x ^ 2 := by
      rw [e]
      refine (abs_add_three _ _ _).trans ?_
      rw [hL]
      linarith
    calc skew al x * |Real.log (skew al x)| ≤ skew al x * (L + (1 / 2 + al ^ 2) * x ^ 2) := mul_le_mul_of_nonneg_left b3 hp.le
      _ = L * skew al x + (1 / 2 + al ^ 2) * (x ^ 2 * skew al x) := by ring

end Verif.SkewLaw
