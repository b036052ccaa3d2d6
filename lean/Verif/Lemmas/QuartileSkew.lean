import Verif.Spec.QuartileSkew
import Verif.Lemmas.QuartileShape
import Verif.Lemmas.HalfScale
import Verif.Lemmas.LawGamma
import Verif.Lemmas.LawEven
import Verif.Lemmas.LawNormal
import Verif.Lemmas.LawLaplace
import Verif.Lemmas.LawLogGamma

/-!
# Densities that cross their mirror image once (C121)
-/

namespace Verif.Lemmas.QuartileSkew
open MeasureTheory Set Filter Topology Verif.Spec

/-- if the density, once not below its mirror image in the median, stays above it, the law leans to the right -/
theorem skew_of_cross {f : ℝ → ℝ} (h0 : ∀ x, 0 ≤ f x) (hi : Integrable f) (h1 : ∫ x, f x = 1)
    (hc : ∀ m, (ofPdf f).real (Iic m) = 1 / 2 → ∀ t s, 0 < t → t < s → f (m - t) ≤ f (m + t) → f (m - s) < f (m + s)) : RightSkew f := by
  refine ⟨by unfold ofPdf; exact isFiniteMeasure_withDensity_ofReal hi.hasFiniteIntegral, fun m t ht hm => ?_⟩
  have ii : ∀ a b, IntervalIntegrable f volume a b := fun a b => hi.intervalIntegrable
  have e1 : ∀ a b, a ≤ b → (ofPdf f).real (Ioc a b) = ∫ x in a..b, f x := by
    intro a b hab
    rw [QuartileShape.real_pdf measurableSet_Ioc h0 hi.integrableOn, intervalIntegral.integral_of_le hab]
  rw [e1 _ _ (by linarith), e1 _ _ (by linarith)]
  set g : ℝ → ℝ := fun x => f (m + x) - f (m - x) with hg
  have i1 : ∀ a b, IntervalIntegrable (fun x => f (m + x)) volume a b := fun a b =>
    (hi.comp_add_left m).intervalIntegrable
  have i2 : ∀ a b, IntervalIntegrable (fun x => f (m - x)) volume a b := fun a b =>
    (hi.comp_sub_left m).intervalIntegrable
  have ig : ∀ a b, IntervalIntegrable g volume a b := fun a b => (i1 a b).sub (i2 a b)
  have D : ∀ t, ∫ x in (0 : ℝ)..t, g x = (∫ x in m..(m + t), f x) - ∫ x in (m - t)..m, f x := by
    intro t
    rw [intervalIntegral.integral_sub (i1 _ _) (i2 _ _), intervalIntegral.integral_comp_add_left,
      intervalIntegral.integral_comp_sub_left]
    simp
  have lim : Tendsto (fun t => ∫ x in (0 : ℝ)..t, g x) atTop (𝓝 0) := by
    have hl : ∫ x in Iic m, f x = 1 / 2 := by
      rw [← hm, QuartileShape.real_pdf measurableSet_Iic h0 hi.integrableOn]
    have hr : ∫ x in Ioi m, f x = 1 / 2 := by
      have := integral_add_compl (measurableSet_Iic (a := m)) hi
      rw [compl_Iic, hl, h1] at this
      linarith
    have t1 := intervalIntegral_tendsto_integral_Ioi m hi.integrableOn
      (tendsto_atTop_add_const_left atTop m tendsto_id)
    have t2 := intervalIntegral_tendsto_integral_Iic m hi.integrableOn
      (tendsto_atBot_add_const_left atTop m tendsto_neg_atTop_atBot)
    rw [hr] at t1
    rw [hl] at t2
    have := t1.sub t2
    rw [sub_self] at this
    refine this.congr fun t => ?_
    rw [D]
    simp [sub_eq_add_neg]
  by_contra hcon
  have hD : 0 ≤ ∫ x in (0 : ℝ)..t, g x := by rw [D]; linarith [not_lt.1 hcon]
  have : ∃ p ∈ Ioo 0 t, 0 ≤ g p := by
    by_contra hne
    push Not at hne
    have := intervalIntegral.intervalIntegral_pos_of_pos_on (f := fun x => -g x) (ig 0 t).neg
      (fun x hx => by have := hne x hx; linarith) ht
    rw [intervalIntegral.integral_neg] at this
    linarith
  obtain ⟨p, ⟨p0, pt⟩, hp⟩ := this
  have pos : ∀ s, p < s → 0 < g s := fun s hs =>
    sub_pos.2 (hc m hm p s p0 hs (sub_nonneg.1 hp))
  have up : ∀ a b, p < a → a < b → ∫ x in (0 : ℝ)..a, g x < ∫ x in (0 : ℝ)..b, g x := by
    intro a b ha hab
    rw [← intervalIntegral.integral_add_adjacent_intervals (ig 0 a) (ig a b)]
    have := intervalIntegral.intervalIntegral_pos_of_pos_on (ig a b) (fun x hx => pos x (ha.trans hx.1)) hab
    linarith
  have h2 := up t (t + 1) pt (by linarith)
  have h3 : ∫ x in (0 : ℝ)..(t + 1), g x ≤ 0 := by
    refine ge_of_tendsto lim ?_
    filter_upwards [eventually_gt_atTop (t + 1)] with b hb
    exact (up _ _ (by linarith) hb).le
  linarith

/-- the same with a derivative: a positive factor and one that grows -/
theorem cross_of_deriv {h w k : ℝ → ℝ} {M : EReal} (h0 : h 0 = 0)
    (hd : ∀ t : ℝ, 0 ≤ t → (t : EReal) < M → HasDerivAt h (w t * k t) t)
    (hw : ∀ t : ℝ, 0 ≤ t → (t : EReal) < M → 0 < w t)
    (hk : ∀ t s : ℝ, 0 ≤ t → t < s → (s : EReal) < M → k t < k s) {t s : ℝ} (ht : 0 < t) (hts : t < s) (hs : (s : EReal) < M)
    (hh : 0 ≤ h t) : 0 < h s := by
  have lt : ∀ x : ℝ, x ≤ s → (x : EReal) < M := fun x hx => lt_of_le_of_lt (EReal.coe_le_coe_iff.2 hx) hs
  have hc : ∀ x : ℝ, 0 ≤ x → x ≤ s → ContinuousAt h x := fun x a b => (hd x a (lt x b)).continuousAt
  obtain ⟨c, ⟨c0, ct⟩, hc'⟩ := exists_hasDerivAt_eq_slope h (fun t => w t * k t) ht
    (fun x hx => (hc x hx.1 (by linarith [hx.2])).continuousWithinAt) (fun x hx => hd x hx.1.le (lt x (by linarith [hx.2])))
  obtain ⟨d, ⟨dt, ds⟩, hd'⟩ := exists_hasDerivAt_eq_slope h (fun t => w t * k t) hts
    (fun x hx => (hc x (by linarith [hx.1]) hx.2).continuousWithinAt)
    (fun x hx => hd x (by linarith [hx.1]) (lt x hx.2.le))
  rw [h0, sub_zero, sub_zero] at hc'
  have wc := hw c c0.le (lt c (by linarith))
  have wd := hw d (by linarith) (lt d ds.le)
  have kc : 0 ≤ k c := by
    have : 0 ≤ w c * k c := by rw [hc']; exact div_nonneg hh ht.le
    exact nonneg_of_mul_nonneg_right this wc
  have kd : 0 < k d := lt_of_le_of_lt kc (hk c d c0.le (by linarith) (lt d ds.le))
  have : 0 < (h s - h t) / (s - t) := by rw [← hd']; positivity
  have := (div_pos_iff_of_pos_right (sub_pos.2 hts)).1 this
  linarith

/-- a density that starts at `a` and falls from there -/
theorem cross_falling {f : ℝ → ℝ} {a : ℝ} (hz : ∀ x < a, f x = 0) (hp : ∀ x, a < x → 0 < f x)
    (hf : ∀ x y, a ≤ x → x < y → f y < f x) (m t s : ℝ) (hm : a < m) (ht : 0 < t) (hts : t < s) (h : f (m - t) ≤ f (m + t)) :
    f (m - s) < f (m + s) := by
  rcases lt_or_ge (m - s) a with h1 | h1
  · rw [hz _ h1]; exact hp _ (by linarith)
  · exact absurd h (not_le.2 (hf _ _ (by linarith) (by linarith)))

theorem median_above {f : ℝ → ℝ} {a m : ℝ} (hz : ∀ x ≤ a, f x = 0) (hm : (ofPdf f).real (Iic m) = 1 / 2) : a < m := by
  by_contra h
  rw [QuartileShape.cdf_below fun y hy => hz y (hy.trans (not_lt.1 h))] at hm
  norm_num at hm

/-- a density that starts at `a`, where it may jump -/
theorem median_above' {f : ℝ → ℝ} {a m : ℝ} (h0 : ∀ x, 0 ≤ f x) (hz : ∀ x < a, f x = 0)
    (hm : (ofPdf f).real (Iic m) = 1 / 2) : a < m := by
  by_contra h
  rcases lt_or_eq_of_le (not_lt.1 h) with h | h
  · rw [QuartileShape.cdf_below fun y hy => hz y (lt_of_le_of_lt hy h)] at hm
    norm_num at hm
  · have := QuartileShape.cdf_from (f := f) (G := fun _ => 0) h0 (le_refl a) hz continuousOn_const (by simp)
    rw [h, this] at hm
    norm_num at hm

theorem of_prob {f : ℝ → ℝ} (hm : Measurable f) (h0 : ∀ x, 0 ≤ f x) (hp : IsProbabilityMeasure (ofPdf f)) :
    Integrable f ∧ ∫ x, f x = 1 := by
  have h1 : ∫⁻ x, ENNReal.ofReal (f x) = 1 := by
    have := hp.measure_univ
    unfold ofPdf at this
    rwa [withDensity_apply _ MeasurableSet.univ, Measure.restrict_univ] at this
  have hi : Integrable f := by
    refine ⟨hm.aestronglyMeasurable, ?_⟩
    rw [hasFiniteIntegral_iff_ofReal (ae_of_all _ h0), h1]
    exact ENNReal.one_lt_top
  refine ⟨hi, ?_⟩
  rw [integral_eq_lintegral_of_nonneg_ae (ae_of_all _ h0) hm.aestronglyMeasurable, h1, ENNReal.toReal_one]

/-- `x^(-A) e^(-B x - D / x)` on the half line -/
theorem skew_gig {f : ℝ → ℝ} {A B D C : ℝ} (hB : 0 ≤ B) (hD : 0 ≤ D) (hBD : 0 < B + D) (hC : 0 < C)
    (hf : ∀ x, 0 < x → f x = C * Real.exp (-A * Real.log x - B * x - D / x)) (hz : ∀ x ≤ 0, f x = 0)
    (hi : Integrable f) (h1 : ∫ x, f x = 1) : RightSkew f := by
  have h0 : ∀ x, 0 ≤ f x := by
    intro x
    rcases le_or_gt x 0 with h | h
    · rw [hz x h]
    · rw [hf x h]; positivity
  refine skew_of_cross h0 hi h1 fun m hm t s ht hts h => ?_
  have m0 := median_above hz hm
  rcases le_or_gt m s with hs | hs
  · rw [hz _ (by linarith), hf _ (by linarith)]; positivity
  rw [hf _ (by linarith), hf _ (by linarith), mul_le_mul_iff_right₀ hC, Real.exp_le_exp] at h
  rw [hf _ (by linarith), hf _ (by linarith), mul_lt_mul_iff_right₀ hC, Real.exp_lt_exp]
  have key := cross_of_deriv (M := (m : EReal))
    (h := fun t => (-A * Real.log (m + t) - B * (m + t) - D / (m + t)) - (-A * Real.log (m - t) - B * (m - t) - D / (m - t)))
    (w := fun t => 2 / (m ^ 2 - t ^ 2)) (k := fun t => -A * m - B * (m ^ 2 - t ^ 2) + D * ((m ^ 2 + t ^ 2) / (m ^ 2 - t ^ 2)))
    (by simp) (fun t t0 tm => ?_) (fun t t0 tm => ?_) (fun t s t0 ts sm => ?_) ht hts (by exact_mod_cast hs) (by linarith)
  · linarith
  · have tm : t < m := by exact_mod_cast tm
    have a1 : m + t ≠ 0 := by linarith
    have a2 : m - t ≠ 0 := by linarith
    have a3 : m ^ 2 - t ^ 2 ≠ 0 := by
      rw [show m ^ 2 - t ^ 2 = (m + t) * (m - t) by ring]; exact mul_ne_zero a1 a2
    have d1 : HasDerivAt (fun t => m + t) 1 t := (hasDerivAt_id t).const_add m
    have d2 : HasDerivAt (fun t => m - t) (-1) t := (hasDerivAt_id t).const_sub m
    have e1 := (((d1.log a1).const_mul (-A)).sub (d1.const_mul B)).sub ((hasDerivAt_const t D).div d1 a1)
    have e2 := (((d2.log a2).const_mul (-A)).sub (d2.const_mul B)).sub ((hasDerivAt_const t D).div d2 a2)
    refine (e1.sub e2).congr_deriv ?_
    rw [show m ^ 2 - t ^ 2 = (m + t) * (m - t) by ring]
    field_simp
    ring
  · have tm : t < m := by exact_mod_cast tm
    have : 0 < m ^ 2 - t ^ 2 := by nlinarith
    positivity
  · have sm : s < m := by exact_mod_cast sm
    have p2 : 0 < m ^ 2 - s ^ 2 := by nlinarith
    have lt : t ^ 2 < s ^ 2 := by nlinarith
    have p1 : 0 < m ^ 2 - t ^ 2 := by linarith
    have r : (m ^ 2 + t ^ 2) / (m ^ 2 - t ^ 2) < (m ^ 2 + s ^ 2) / (m ^ 2 - s ^ 2) := by
      rw [div_lt_div_iff₀ p1 p2]
      nlinarith [mul_pos (pow_pos m0 2) (sub_pos.2 lt)]
    rcases lt_or_eq_of_le hB with hB' | hB'
    · nlinarith [mul_pos hB' (sub_pos.2 lt), mul_nonneg hD (sub_nonneg.2 r.le)]
    · have hD' : 0 < D := by linarith
      nlinarith [mul_nonneg hB (sub_nonneg.2 lt.le), mul_pos hD' (sub_pos.2 r)]

/-- `e^(-c (z + e^(-z)))` on the line -/
theorem skew_extreme {f : ℝ → ℝ} {c C a b : ℝ} (hc : 0 < c) (hC : 0 < C) (hb : 0 < b)
    (hf : ∀ x, f x = C * Real.exp (-(c * ((x - a) / b + Real.exp (-((x - a) / b))))))
    (hi : Integrable f) (h1 : ∫ x, f x = 1) : RightSkew f := by
  have h0 : ∀ x, 0 ≤ f x := fun x => by rw [hf x]; positivity
  refine skew_of_cross h0 hi h1 fun m _ t s ht hts h => ?_
  rw [hf, hf, mul_le_mul_iff_right₀ hC, Real.exp_le_exp] at h
  rw [hf, hf, mul_lt_mul_iff_right₀ hC, Real.exp_lt_exp]
  have key := cross_of_deriv (M := ⊤)
    (h := fun t => -(c * ((m + t - a) / b + Real.exp (-((m + t - a) / b)))) -
      -(c * ((m - t - a) / b + Real.exp (-((m - t - a) / b)))))
    (w := fun _ => 2 * c / b) (k := fun t => -1 + Real.exp (-((m - a) / b)) * Real.cosh (t / b))
    (by simp) (fun t t0 tm => ?_) (fun t t0 tm => by positivity) (fun t s t0 ts sm => ?_) ht hts (EReal.coe_lt_top s)
    (by linarith)
  · linarith
  · have d1 : HasDerivAt (fun t => (m + t - a) / b) (1 / b) t := (((hasDerivAt_id t).const_add m).sub_const a).div_const b
    have d2 : HasDerivAt (fun t => (m - t - a) / b) (-1 / b) t := (((hasDerivAt_id t).const_sub m).sub_const a).div_const b
    have e1 := ((d1.add d1.neg.exp).const_mul c).neg
    have e2 := ((d2.add d2.neg.exp).const_mul c).neg
    refine (e1.sub e2).congr_deriv ?_
    simp only [Pi.neg_apply]
    rw [Real.cosh_eq, show -((m + t - a) / b) = -((m - a) / b) + -(t / b) by ring,
      show -((m - t - a) / b) = -((m - a) / b) + t / b by ring, Real.exp_add, Real.exp_add]
    ring
  · have : Real.cosh (t / b) < Real.cosh (s / b) := by
      rw [Real.cosh_lt_cosh, abs_of_nonneg (by positivity), abs_of_nonneg (div_nonneg (by linarith) hb.le)]
      gcongr
    have e := Real.exp_pos (-((m - a) / b))
    nlinarith

/-- the exponential of a symmetric law -/
theorem skew_of_log {f : ℝ → ℝ} {H : ℝ → ℝ} {c : ℝ} (hz : ∀ x ≤ 0, f x = 0)
    (hF : ∀ x, 0 < x → (ofPdf f).real (Iic x) = H (Real.log x)) (hmono : StrictMono H) (hpos : ∀ y, 0 < H y)
    (hsym : ∀ y, H (c - y) = 1 - H (c + y)) : RightSkew f := by
  have hlt : ∀ y, H y < 1 := by
    intro y
    have := hsym (y - c)
    have := hpos (c - (y - c))
    rw [show c + (y - c) = y by ring] at *
    linarith
  have fin : ∀ x, (ofPdf f) (Iic x) ≤ 1 := by
    intro x
    refine (measure_mono (Iic_subset_Iic.2 (le_max_left x 1))).trans ?_
    have h2 := hF (max x 1) (by positivity)
    have h3 := hpos (Real.log (max x 1))
    have h4 := hlt (Real.log (max x 1))
    have hne : (ofPdf f) (Iic (max x 1)) ≠ ⊤ := by
      intro e
      rw [Measure.real, e] at h2
      simp at h2
      linarith
    rw [← ENNReal.ofReal_toReal hne, ← ENNReal.ofReal_one]
    exact ENNReal.ofReal_le_ofReal (by change (ofPdf f).real _ ≤ 1; rw [h2]; exact h4.le)
  have hfin : IsFiniteMeasure (ofPdf f) := by
    constructor
    have e : (univ : Set ℝ) = ⋃ n : ℕ, Iic (n : ℝ) := by
      symm
      rw [eq_univ_iff_forall]
      intro x
      obtain ⟨n, hn⟩ := exists_nat_ge x
      exact mem_iUnion.2 ⟨n, hn⟩
    have mono : Monotone fun n : ℕ => Iic (n : ℝ) := fun a b hab => Iic_subset_Iic.2 (by exact_mod_cast hab)
    rw [e, mono.measure_iUnion]
    exact lt_of_le_of_lt (iSup_le fun n => fin n) ENNReal.one_lt_top
  refine ⟨hfin, fun m t ht hm => ?_⟩
  have m0 := median_above hz hm
  have hc : H c = 1 / 2 := by have := hsym 0; rw [sub_zero, add_zero] at this; linarith
  have hmc : Real.log m = c := by
    rw [hF m m0, ← hc] at hm; exact hmono.injective hm
  have dif : ∀ a b, a ≤ b → (ofPdf f).real (Ioc a b) = (ofPdf f).real (Iic b) - (ofPdf f).real (Iic a) := by
    intro a b hab
    have e : Iic b = Iic a ∪ Ioc a b := (Iic_union_Ioc_eq_Iic hab).symm
    have := measureReal_union (μ := ofPdf f) (s₁ := Iic a) (s₂ := Ioc a b) (by
      rw [Set.disjoint_left]; rintro y hy ⟨hy', -⟩; exact absurd hy (not_le.2 hy')) measurableSet_Ioc
    rw [← e] at this
    linarith
  rw [dif _ _ (by linarith), dif _ _ (by linarith), hm, hF (m + t) (by linarith)]
  rcases le_or_gt m t with h | h
  · rw [QuartileShape.cdf_below fun y hy => hz y (by linarith)]
    linarith [hlt (Real.log (m + t))]
  · rw [hF (m - t) (by linarith)]
    have h2 := hsym (c - Real.log (m - t))
    rw [sub_sub_cancel] at h2
    have h3 : Real.log (m + t) < c + (c - Real.log (m - t)) := by
      have : Real.log (m + t) + Real.log (m - t) < Real.log m + Real.log m := by
        rw [← Real.log_mul (by linarith) (by linarith), ← Real.log_mul m0.ne' m0.ne']
        exact Real.log_lt_log (mul_pos (by linarith) (by linarith)) (by nlinarith)
      rw [hmc] at this
      linarith
    have := hmono h3
    linarith

theorem skew_falling {f : ℝ → ℝ} {a : ℝ} (hz : ∀ x < a, f x = 0) (hp : ∀ x, a < x → 0 < f x)
    (hf : ∀ x y, a ≤ x → x < y → f y < f x) (hi : Integrable f) (h1 : ∫ x, f x = 1) : RightSkew f := by
  have h0 : ∀ x, 0 ≤ f x := by
    intro x
    rcases lt_trichotomy x a with h | h | h
    · rw [hz x h]
    · have := (hp _ (lt_add_one a)).trans (hf x (a + 1) h.ge (by linarith))
      exact this.le
    · exact (hp x h).le
  exact skew_of_cross h0 hi h1 fun m hm t s ht hts h =>
    cross_falling hz hp hf m t s (median_above' h0 hz hm) ht hts h

end Verif.Lemmas.QuartileSkew
