import Verif.Props.TwoIntervals

/-!
# C155: how the highest density interval depends on location and scale
-/

namespace Verif.Props
open Verif Verif.Modifier Verif.Hdi Verif.Interval Verif.Spec Verif.LocScale Verif.HalfScale MeasureTheory Set

private theorem law_massOf (b : Base) (hb : b.discrete = false) {f : ℝ → ℝ} (h : b.pdf = f) (l u : ℝ) :
    b.law.real (Icc l u) = massOf f l u := by
  rw [(b.continuous_law hb).2, h]; rfl

/-- Normal, Laplace, Logistic, Cauchy and StudentT with the same degrees of freedom: the interval is the location plus
and minus a number of scales that depends on the mass alone. -/
theorem peak_interval_scale (minimize : Minimize) (hmin : Exact minimize) (F : PeakFam) (hF : F.Ok) (mass : ℝ)
    (h0 : 0 < mass) (h1 : mass < 1) :
    ∃ z, 0 < z ∧ ∀ (m s : ℝ), 0 < s → ∀ b : Base, b.discrete = false → b.pdf = F.pdf m s →
      continuousHdi minimize b mass = (m - s * z, m + s * z) := by
  have hg := peak_fam F hF
  obtain ⟨z, hz, hzm⟩ := around_exists hg h0 h1
  refine ⟨z, hz, fun m s hs b hb hpdf => ?_⟩
  obtain ⟨-, k2, k3⟩ := peak_intervals minimize hmin F hF m s hs b hb hpdf mass mass h0 h1
  obtain ⟨-, hle, -, hm, -⟩ := hdi_continuous minimize hmin b hb mass h0 h1
  rw [law_massOf b hb hpdf, fam_moved F m hs, mass_moved hg m hs hle] at hm
  set x := continuousHdi minimize b mass
  rw [show ((x.1 + x.2) / 2 - m) / s = 0 by rw [k2]; simp] at hm
  have e := (around_mono hg 0).injective (hm.trans hzm.symm)
  rw [div_eq_iff (by positivity)] at e
  exact Prod.ext (by simp only; linarith) (by simp only; linarith)

/-- Exponential, HalfNormal, HalfCauchy and HalfStudentT with the same degrees of freedom: the interval goes from zero to a
number of scales that depends on the mass alone. -/
theorem half_interval_scale (minimize : Minimize) (hmin : Exact minimize) (F : HalfFam) (hF : F.Ok) (mass : ℝ)
    (h0 : 0 < mass) (h1 : mass < 1) :
    ∃ z, 0 < z ∧ ∀ s : ℝ, 0 < s → ∀ b : Base, b.discrete = false → b.pdf = F.pdf s → b.lo = ((0 : ℝ) : EReal) →
      continuousHdi minimize b mass = (0, s * z) := by
  have hg := unfolded_peak F hF
  obtain ⟨z, hz, hzm⟩ := around_exists hg h0 h1
  refine ⟨z, hz, fun s hs b hb hpdf hlo => ?_⟩
  obtain ⟨k1, -, -⟩ := half_intervals minimize hmin F hF s hs b hb hpdf hlo mass mass h0 h1
  obtain ⟨-, hle, -, hm, -⟩ := hdi_continuous minimize hmin b hb mass h0 h1
  rw [law_massOf b hb hpdf, half_folded F hF hs, mass_folded hg hs k1.ge hle] at hm
  set x := continuousHdi minimize b mass
  rw [k1, zero_div, show around (unfolded F) 0 0 = 0 by simp [around], sub_zero] at hm
  have e := (around_mono hg 0).injective (hm.trans hzm.symm)
  rw [div_eq_iff hs.ne'] at e
  exact Prod.ext k1 (by simp only; linarith)

/-- `Exponential`: the interval ends at `-log(1 - mass) / lam` -/
theorem exponential_interval (minimize : Minimize) (hmin : Exact minimize) (lam : ℝ) (hl : 0 < lam) (mass : ℝ) (h0 : 0 < mass)
    (h1 : mass < 1) (b : Base) (hb : b.discrete = false) (hpdf : b.pdf = exponentialPdf lam)
    (hlo : b.lo = ((0 : ℝ) : EReal)) :
    continuousHdi minimize b mass = (0, -Real.log (1 - mass) / lam) := by
  obtain ⟨k1, -, -⟩ := half_intervals minimize hmin .exponential trivial (1 / lam) (by positivity) b hb
    (by rw [hpdf]; simp only [HalfFam.pdf, one_div_one_div]) hlo mass mass h0 h1
  obtain ⟨-, hle, -, hm, -⟩ := hdi_continuous minimize hmin b hb mass h0 h1
  set x := continuousHdi minimize b mass
  rw [law_Icc_eq b hb, law_Ioc b hb hle, k1, hpdf] at hm
  rw [k1] at hle
  have hi : ∫ y in (0 : ℝ)..x.2, exponentialPdf lam y = 1 - Real.exp (-(lam * x.2)) := by
    have : ∀ y ∈ uIcc 0 x.2, HasDerivAt (fun y => -Real.exp (-(lam * y))) (lam * Real.exp (-(lam * y))) y := by
      intro y _
      have h := (((hasDerivAt_id y).const_mul lam).neg.exp).neg
      refine h.congr_deriv ?_
      simp only [id_eq, mul_one, Pi.neg_apply]
      ring
    have e := intervalIntegral.integral_eq_sub_of_hasDerivAt this
      (Continuous.intervalIntegrable (by fun_prop) _ _)
    rw [mul_zero, neg_zero, Real.exp_zero] at e
    rw [intervalIntegral.integral_congr (g := fun y => lam * Real.exp (-(lam * y))) ?_, e]
    · ring
    · intro y hy
      rw [uIcc_of_le hle] at hy
      simp only [exponentialPdf]
      rw [if_neg (not_lt.2 hy.1)]
  rw [hi] at hm
  have e : Real.exp (-(lam * x.2)) = 1 - mass := by linarith
  have : -(lam * x.2) = Real.log (1 - mass) := by rw [← e, Real.log_exp]
  refine Prod.ext k1 ?_
  simp only
  rw [← this]
  field_simp

example (minimize : Minimize) (hmin : Exact minimize) : ∃ b : Base, b.pdf = exponentialPdf 2 ∧
    continuousHdi minimize b 0.5 = (0, -Real.log (1 - 0.5) / 2) := by
  obtain ⟨b, hb, hp, hl⟩ := half_base_exists .exponential trivial (1 / 2) (by norm_num)
  have hp' : b.pdf = exponentialPdf 2 := by rw [hp]; simp only [HalfFam.pdf, one_div_one_div]
  exact ⟨b, hp', exponential_interval minimize hmin 2 (by norm_num) 0.5 (by norm_num) (by norm_num) b hb hp' hl⟩

/-- doubling the scale of a Normal doubles the interval around the location -/
example (minimize : Minimize) (hmin : Exact minimize) : ∃ z, 0 < z ∧ ∃ b c : Base, b.pdf = normalPdf 3 2 ∧ c.pdf = normalPdf 3 4 ∧
    continuousHdi minimize b 0.94 = (3 - 2 * z, 3 + 2 * z) ∧ continuousHdi minimize c 0.94 = (3 - 4 * z, 3 + 4 * z) := by
  obtain ⟨z, hz, h⟩ := peak_interval_scale minimize hmin .normal trivial 0.94 (by norm_num) (by norm_num)
  obtain ⟨b, hb, hp⟩ := peak_base_exists .normal trivial 3 2 (by norm_num)
  obtain ⟨c, hc, hq⟩ := peak_base_exists .normal trivial 3 4 (by norm_num)
  exact ⟨z, hz, b, c, hp, hq, h 3 2 (by norm_num) b hb hp, h 3 4 (by norm_num) c hc hq⟩

end Verif.Props
