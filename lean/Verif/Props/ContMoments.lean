import Verif.Lemmas.Trapezoid
import Verif.Lemmas.Sampling
import Verif.Props.GridMoments
import Mathlib.Analysis.Complex.ExponentialBounds

set_option linter.unusedSimpArgs false

/-!
# C91: moments that `Truncated`, `Hurdle` and `Mixture` compute on a grid (continuous bases)
-/

namespace Verif.Props
open Verif MeasureTheory Verif.Spec Verif.Modifier Verif.Interval Verif.TruncatedMoments Verif.GridMoments
open Verif.ContMoments

/-- `f` is twice continuously differentiable on `[a, c]`, with second derivative at most `z` in absolute value -/
def SmoothOn (f : ℝ → ℝ) (a c z : ℝ) : Prop :=
  ContDiffOn ℝ 2 f (Set.Icc a c) ∧ ∀ x ∈ Set.Icc a c, |iteratedDerivWithin 2 f (Set.Icc a c) x| ≤ z

/-- how far the trapezoidal rule with 999 trapezoids may be off -/
noncomputable def slack (a c z : ℝ) : ℝ := (c - a) ^ 3 * z / (12 * 999 ^ 2)

private theorem smooth_error {f : ℝ → ℝ} {a c z : ℝ} (h : SmoothOn f a c z) (hac : a ≤ c) :
    |gridIntegral f a c - ∫ x in a..c, f x| ≤ slack a c z := grid_error f a c hac h.1 z h.2

/-! ### Truncated -/

private theorem finite_some {x : Option EReal} {a : ℝ} (h : ContMoments.finite x = some a) : x = some (a : EReal) := by
  cases x with
  | none => simp [ContMoments.finite] at h
  | some x =>
    unfold ContMoments.finite at h
    dsimp only at h
    split_ifs at h with h1
    push Not at h1
    rw [← Option.some.inj h, EReal.coe_toReal h1.1 h1.2]

theorem fullEnds_some {lo hi : EReal} {ppf : ℝ → Option EReal} {a c : ℝ}
    (h : fullEnds lo hi ppf = some (a, c)) :
    (lo = (a : EReal) ∨ ppf 0.0001 = some (a : EReal)) ∧ (hi = (c : EReal) ∨ ppf 0.9999 = some (c : EReal)) := by
  unfold fullEnds at h
  split at h
  · rename_i x y h1 h2
    simp only [Option.some.injEq, Prod.mk.injEq] at h
    obtain ⟨rfl, rfl⟩ := h
    have h1 := finite_some h1
    have h2 := finite_some h2
    constructor
    · split_ifs at h1
      · exact Or.inr h1
      · exact Or.inl (Option.some.inj h1)
    · split_ifs at h2
      · exact Or.inr h2
      · exact Or.inl (Option.some.inj h2)
  · simp at h

private theorem fullEnds_finite (a c : ℝ) (ppf : ℝ → Option EReal) : fullEnds (a : EReal) (c : EReal) ppf = some (a, c) := by
  simp [fullEnds, ContMoments.finite]

private theorem trunc_meas (b : Base) (hd : b.discrete = false) (l u : EReal) (hm : 0 < b.law.real (between l u)) :
    Measurable (truncPdf b l u) := by
  have : truncPdf b l u = Set.indicator (between l u) fun y => b.pdf y / b.law.real (between l u) :=
    funext (trunc_pdf_eq b l u (by simp [hd]) hm)
  rw [this]
  exact ((b.continuous_law hd).1.div_const _).indicator (meas_between l u)

private theorem trunc_support (b : Base) (l u : EReal) :
    ∀ᵐ (y : ℝ) ∂truncLaw b.law l u, max b.lo l ≤ (y : EReal) ∧ (y : EReal) ≤ min b.hi u := by
  have h1 : ∀ᵐ (y : ℝ) ∂truncLaw b.law l u, b.lo ≤ (y : EReal) ∧ (y : EReal) ≤ b.hi :=
    ProbabilityTheory.cond_absolutelyContinuous.ae_le b.in_support
  have h2 : ∀ᵐ (y : ℝ) ∂truncLaw b.law l u, y ∈ between l u :=
    ProbabilityTheory.ae_cond_mem (meas_between l u)
  filter_upwards [h1, h2] with y h1 h2
  exact ⟨max_le h1.1 h2.1, le_min h1.2 h2.2⟩

/-- C91: the grid of a truncated continuous distribution leaves out a probability of at most 0.0002, and nothing at
all if the support is finite. -/
theorem truncated_ends (b : Base) (hd : b.discrete = false) (l u : EReal) (hm : 0 < b.law.real (between l u))
    (a c : ℝ) (he : truncEnds b l u = some (a, c)) :
    a ≤ c ∧ (truncLaw b.law l u).real (Set.Icc a c)ᶜ ≤ 0.0002 ∧
    (max b.lo l = (a : EReal) → min b.hi u = (c : EReal) → ∀ᵐ y ∂(truncLaw b.law l u), y ∈ Set.Icc a c) := by
  have := truncated_proper b l u hm
  have hs := trunc_support b l u
  obtain ⟨e1, e2⟩ := fullEnds_some he
  have t1 : (truncLaw b.law l u).real (Set.Iio a) ≤ 0.0001 := by
    rcases e1 with e1 | e1
    · have hz : (truncLaw b.law l u) (Set.Iio a) = 0 := by
        refine measure_mono_null ?_ (ae_iff.1 hs)
        intro y hy hc
        have h3 : max b.lo l ≤ (y : EReal) := hc.1
        have e1 : max b.lo l = (a : EReal) := e1
        rw [e1, EReal.coe_le_coe_iff] at h3
        exact absurd hy (not_lt.2 h3)
      rw [measureReal_def, hz]; norm_num
    · obtain ⟨Q, hQ, hq, -⟩ := truncated_ppf b l u (by simp [hd]) hm 0.0001 (by norm_num) (by norm_num)
      rw [e1, Option.some.injEq] at hQ
      subst hQ
      apply real_Iio_le
      intro x hx
      by_contra hc
      push Not at hc
      have := (hq x).2 hc.le
      rw [EReal.coe_le_coe_iff] at this
      exact absurd hx (not_lt.2 this)
  have t2 : (truncLaw b.law l u).real (Set.Ioi c) ≤ 0.0001 := by
    rcases e2 with e2 | e2
    · have hz : (truncLaw b.law l u) (Set.Ioi c) = 0 := by
        refine measure_mono_null ?_ (ae_iff.1 hs)
        intro y hy hc
        have h3 : (y : EReal) ≤ min b.hi u := hc.2
        have e2 : min b.hi u = (c : EReal) := e2
        rw [e2, EReal.coe_le_coe_iff] at h3
        exact absurd hy (not_lt.2 h3)
      rw [measureReal_def, hz]; norm_num
    · obtain ⟨Q, hQ, hq, -⟩ := truncated_ppf b l u (by simp [hd]) hm 0.9999 (by norm_num) (by norm_num)
      rw [e2, Option.some.injEq] at hQ
      subst hQ
      rw [(compl_tail _ _).1]
      have := (hq c).1 le_rfl
      norm_num at this ⊢
      linarith
  have hsub : (Set.Icc a c)ᶜ ⊆ Set.Iio a ∪ Set.Ioi c := by
    intro y hy
    by_contra hc
    simp only [Set.mem_union, Set.mem_Iio, Set.mem_Ioi, not_or, not_lt] at hc
    exact hy ⟨hc.1, hc.2⟩
  have hle : (truncLaw b.law l u).real (Set.Icc a c)ᶜ ≤ 0.0002 :=
    (measureReal_mono hsub).trans ((measureReal_union_le _ _).trans (by norm_num at t1 t2 ⊢; linarith))
  refine ⟨?_, hle, fun h1 h2 => ?_⟩
  · by_contra hc
    rw [Set.Icc_eq_empty hc, Set.compl_empty, probReal_univ] at hle
    norm_num at hle
  · filter_upwards [hs] with y hy
    rw [h1, h2, EReal.coe_le_coe_iff, EReal.coe_le_coe_iff] at hy
    exact hy

/-- C91: the mean reported by a truncated continuous distribution with a smooth density is the integral of `y` over
the grid's range, up to the error of the trapezoidal rule. -/
theorem truncated_mean_cont (b : Base) (hd : b.discrete = false) (l u : EReal) (hm : 0 < b.law.real (between l u))
    (a c : ℝ) (he : truncEnds b l u = some (a, c)) (z : ℝ) (hz : SmoothOn (fun x => x * truncPdf b l u x) a c z) :
    ∃ m, truncMeanC b l u = some m ∧ |m - ∫ y in Set.Icc a c, y ∂(truncLaw b.law l u)| ≤ slack a c z := by
  have hac := (truncated_ends b hd l u hm a c he).1
  refine ⟨gridIntegral (fun x => x * truncPdf b l u x) a c, by rw [truncMeanC, contMean, he]; rfl, ?_⟩
  rw [density_integral _ _ (trunc_meas b hd l u hm) (truncated_density b hd l u hm) (fun y => y) a c hac]
  exact smooth_error hz hac

private theorem bounded_integrable (μ : Measure ℝ) [IsProbabilityMeasure μ] (a c : ℝ) (h : ∀ᵐ y ∂μ, y ∈ Set.Icc a c)
    (f : ℝ → ℝ) (hf : Continuous f) : Integrable f μ := by
  obtain ⟨C, hC⟩ := (isCompact_Icc (a := a) (b := c)).exists_bound_of_continuousOn hf.continuousOn
  exact Integrable.of_bound hf.aestronglyMeasurable C (by filter_upwards [h] with y hy using hC y hy)

private theorem second_moment (μ : Measure ℝ) [IsProbabilityMeasure μ] (a c : ℝ) (h : ∀ᵐ y ∂μ, y ∈ Set.Icc a c)
    (m : ℝ) : ∫ y, (y - m) ^ 2 ∂μ = central μ 2 + (m - mean μ) ^ 2 := by
  have e : ∀ y : ℝ, (y - m) ^ 2 = (y - mean μ) ^ 2 + (2 * (mean μ - m) * y + (m ^ 2 - mean μ ^ 2)) := by intro y; ring
  simp_rw [e]
  have i1 := bounded_integrable μ a c h (fun y => (y - mean μ) ^ 2) (by fun_prop)
  have i2 := bounded_integrable μ a c h (fun y => 2 * (mean μ - m) * y) (by fun_prop)
  have i3 : Integrable (fun y => 2 * (mean μ - m) * y + (m ^ 2 - mean μ ^ 2)) μ := i2.add (integrable_const _)
  rw [integral_add i1 i3, integral_add i2 (integrable_const _), integral_const_mul, integral_const]
  simp only [probReal_univ, one_smul]
  unfold central
  have : ∫ y, y ∂μ = mean μ := rfl
  rw [this]
  ring

/-- C91: for a truncated continuous distribution with finite support and smooth density the reported mean and variance
are those of the conditional law, up to the error of the trapezoidal rule. -/
theorem truncated_moments_cont (b : Base) (hd : b.discrete = false) (l u : EReal) (hm : 0 < b.law.real (between l u))
    (a c : ℝ) (ha : max b.lo l = (a : EReal)) (hc : min b.hi u = (c : EReal)) (z₁ z₂ : ℝ)
    (h₁ : SmoothOn (fun x => x * truncPdf b l u x) a c z₁)
    (h₂ : ∀ m, truncMeanC b l u = some m → SmoothOn (fun x => (x - m) ^ 2 * truncPdf b l u x) a c z₂) :
    ∃ m v, truncMeanC b l u = some m ∧ truncVarC b l u = some v ∧
      |m - mean (truncLaw b.law l u)| ≤ slack a c z₁ ∧
      |v - central (truncLaw b.law l u) 2| ≤ slack a c z₂ + slack a c z₁ ^ 2 := by
  have := truncated_proper b l u hm
  have he : truncEnds b l u = some (a, c) := by
    unfold truncEnds truncSupport
    rw [ha, hc]
    exact fullEnds_finite a c _
  obtain ⟨hac, -, hin⟩ := truncated_ends b hd l u hm a c he
  have hin := hin ha hc
  obtain ⟨m, hm1, hm2⟩ := truncated_mean_cont b hd l u hm a c he z₁ h₁
  rw [Measure.restrict_eq_self_of_ae_mem hin] at hm2
  have hv := smooth_error (h₂ m hm1) hac
  rw [← density_integral _ _ (trunc_meas b hd l u hm) (truncated_density b hd l u hm) (fun y => (y - m) ^ 2) a c hac,
    Measure.restrict_eq_self_of_ae_mem hin, second_moment _ a c hin] at hv
  refine ⟨m, gridIntegral (fun x => (x - m) ^ 2 * truncPdf b l u x) a c, hm1, ?_, hm2, ?_⟩
  · have hm1' : contMean (some (a, c)) (truncPdf b l u) = some m := by rw [← he]; exact hm1
    unfold truncVarC contVar
    rw [he, hm1']
  · have h3 : (m - mean (truncLaw b.law l u)) ^ 2 ≤ slack a c z₁ ^ 2 := by
      rw [← sq_abs]
      exact pow_le_pow_left₀ (abs_nonneg _) hm2 2
    rw [abs_le] at hv ⊢
    constructor <;> nlinarith [hv.1, hv.2, sq_nonneg (m - mean (truncLaw b.law l u))]

private theorem grid_congr {f g : ℝ → ℝ} {a c : ℝ} (h : ∀ x ∈ Set.Icc a c, f x = g x) (hac : a ≤ c) :
    gridIntegral f a c = gridIntegral g a c := by
  rw [gridIntegral_eq, gridIntegral_eq]
  unfold trapezoidal_integral
  rw [h a ⟨le_rfl, hac⟩, h c ⟨hac, le_rfl⟩]
  have hs : ∀ k ∈ Finset.range (999 - 1), f (a + ((k : ℝ) + 1) * (c - a) / (999 : ℕ)) =
      g (a + ((k : ℝ) + 1) * (c - a) / (999 : ℕ)) := ?_
  · rw [Finset.sum_congr rfl hs]
  intro k hk
  refine h _ ?_
  have hk : ((k : ℝ)) + 1 ≤ 999 := by
    have := Finset.mem_range.1 hk
    have : k + 1 ≤ 999 := by omega
    exact_mod_cast this
  have hk0 : (0 : ℝ) ≤ k := by positivity
  have h0 : 0 ≤ c - a := by linarith
  push_cast
  constructor
  · have : 0 ≤ ((k : ℝ) + 1) * (c - a) / 999 := by positivity
    linarith
  · have : ((k : ℝ) + 1) * (c - a) / 999 ≤ c - a := by
      rw [div_le_iff₀ (by norm_num)]
      nlinarith
    linarith

/-- C91: skewness (`k = 3`) and kurtosis (`k = 4`, before 3 is subtracted) of a truncated continuous distribution with
finite support are the moments of the conditional law standardised with the reported mean and standard deviation, up
to the error of the trapezoidal rule. -/
theorem truncated_standard_cont (k : ℕ) (b : Base) (hd : b.discrete = false) (l u : EReal)
    (hm : 0 < b.law.real (between l u)) (a c : ℝ) (ha : max b.lo l = (a : EReal)) (hc : min b.hi u = (c : EReal))
    (m v : ℝ) (hmean : truncMeanC b l u = some m) (hvar : truncVarC b l u = some v) (hv : 0 < v) (z : ℝ)
    (hz : SmoothOn (fun x => ((x - m) / Real.sqrt v) ^ k * truncPdf b l u x) a c z) :
    ∃ r, truncStandardC k b l u = some r ∧
      |r - ∫ y, ((y - m) / Real.sqrt v) ^ k ∂(truncLaw b.law l u)| ≤ slack a c z := by
  have he : truncEnds b l u = some (a, c) := by
    unfold truncEnds truncSupport
    rw [ha, hc]
    exact fullEnds_finite a c _
  obtain ⟨hac, -, hin⟩ := truncated_ends b hd l u hm a c he
  have e := smooth_error hz hac
  rw [← density_integral _ _ (trunc_meas b hd l u hm) (truncated_density b hd l u hm)
    (fun y => ((y - m) / Real.sqrt v) ^ k) a c hac, Measure.restrict_eq_self_of_ae_mem (hin ha hc)] at e
  refine ⟨_, ?_, e⟩
  unfold truncStandardC contStandard
  rw [he, hmean, hvar]
  simp only [Option.bind_some, if_neg (not_lt.2 hv.le), if_neg (Real.sqrt_ne_zero'.2 hv)]

/-- C91: the entropy of a truncated continuous distribution whose density is positive and smooth between the 0.0001 and
0.9999 quantiles is the integral of `-p log p` between these, up to the error of the trapezoidal rule. -/
theorem truncated_entropy_cont (b : Base) (hd : b.discrete = false) (l u : EReal)
    (hm : 0 < b.law.real (between l u)) (a c : ℝ) (ha : IsQuantile (truncLaw b.law l u) 0.0001 a)
    (hc : IsQuantile (truncLaw b.law l u) 0.9999 c)
    (hpos : ∀ x ∈ Set.Icc a c, truncPdf b l u x ≠ 0) (z : ℝ)
    (hz : SmoothOn (fun x => Real.negMulLog (truncPdf b l u x)) a c z) :
    ∃ r, truncEntropyC b l u = some r ∧ |r - ∫ x in a..c, Real.negMulLog (truncPdf b l u x)| ≤ slack a c z := by
  have hac : a ≤ c := by
    have h1 := (hc c).1 le_rfl
    have := (ha c).2 (le_trans (by norm_num) h1)
    exact_mod_cast this
  have hends : restrictedEnds (truncPpf b l u) = some (a, c) := by
    obtain ⟨Q, q1, q2, -⟩ := truncated_ppf b l u (by simp [hd]) hm 0.0001 (by norm_num) (by norm_num)
    obtain ⟨R, r1, r2, -⟩ := truncated_ppf b l u (by simp [hd]) hm 0.9999 (by norm_num) (by norm_num)
    unfold restrictedEnds
    rw [q1, r1, Lemmas.quantile_unique q2 ha, Lemmas.quantile_unique r2 hc]
    simp [ContMoments.finite]
  have hgrid : ∀ x ∈ Roulette.linspace a c 1000, x ∈ Set.Icc a c := by
    intro x hx
    unfold Roulette.linspace at hx
    rw [List.mem_map] at hx
    obtain ⟨i, hi, rfl⟩ := hx
    have hi : (i : ℝ) ≤ 999 := by
      have := List.mem_range.1 hi
      have : i ≤ 999 := by omega
      exact_mod_cast this
    have h0 : 0 ≤ c - a := by linarith
    have hi0 : (0 : ℝ) ≤ i := by positivity
    rw [if_neg (by norm_num)]
    push_cast
    constructor
    · have : 0 ≤ (i : ℝ) * ((c - a) / (1000 - 1)) := by
        apply mul_nonneg hi0 (div_nonneg h0 (by norm_num))
      linarith
    · have : (i : ℝ) * ((c - a) / (1000 - 1)) ≤ 999 * ((c - a) / (1000 - 1)) :=
        mul_le_mul_of_nonneg_right hi (div_nonneg h0 (by norm_num))
      linarith
  have hlog : ∀ x ∈ Set.Icc a c, truncLogpdf b l u x = some (Real.log (truncPdf b l u x)) := by
    intro x hx
    rw [truncated_logpdf, logOf, if_neg (hpos x hx)]
  have hany : ((Roulette.linspace a c 1000).any fun x => (truncLogpdf b l u x).isNone) = false := by
    rw [List.any_eq_false]
    intro x hx
    rw [hlog x (hgrid x hx)]
    simp
  refine ⟨_, ?_, smooth_error hz hac⟩
  unfold truncEntropyC
  rw [hends, Option.bind_some]
  dsimp only
  rw [hany, if_neg (by simp), Option.some.injEq, ← neg_one_mul, ← gridIntegral_smul]
  refine grid_congr (fun x hx => ?_) hac
  rw [hlog x hx, Option.getD_some, Real.negMulLog]
  ring

private theorem sum_poly (α β γ : ℝ) (n : ℕ) : ∑ k ∈ Finset.range n, (α + β * ((k : ℝ) + 1) + γ * ((k : ℝ) + 1) ^ 2) =
    n * α + β * (n * (n + 1) / 2) + γ * (n * (n + 1) * (2 * n + 1) / 6) := by
  induction n with
  | zero => simp
  | succ n ih => rw [Finset.sum_range_succ, ih]; push_cast; ring

private theorem grid_quadratic (α β γ a c : ℝ) : gridIntegral (fun x => α + β * (x - a) + γ * (x - a) ^ 2) a c =
    (c - a) * α + β * (c - a) ^ 2 / 2 + γ * (c - a) ^ 3 * (1 / 3 + 1 / (6 * 999 ^ 2)) := by
  rw [gridIntegral_eq]
  unfold trapezoidal_integral
  have : ∀ k : ℕ, α + β * (a + ((k : ℝ) + 1) * (c - a) / (999 : ℕ) - a) + γ * (a + ((k : ℝ) + 1) * (c - a) / (999 : ℕ) - a) ^ 2 =
      α + (β * (c - a) / 999) * ((k : ℝ) + 1) + (γ * (c - a) ^ 2 / 999 ^ 2) * ((k : ℝ) + 1) ^ 2 := by
    intro k; push_cast; ring
  simp_rw [this]
  rw [sum_poly]
  push_cast
  ring

private theorem unif_between (a b : ℝ) (h : a < b) (l u : ℝ) (h1 : a ≤ l) (h2 : l < u) (h3 : u ≤ b) :
    (unif a b h).law.real (between l u) = (u - l) / (b - a) := by
  have e : between (l : EReal) u = Set.Icc l u := by
    ext y; simp [between]
  rw [e, unif_real a b h _ measurableSet_Icc, Set.inter_eq_left.2 (Set.Icc_subset_Icc h1 h3), Real.volume_real_Icc,
    max_eq_left (by linarith)]

private theorem unif_trunc_pdf (a b : ℝ) (h : a < b) (l u : ℝ) (h1 : a ≤ l) (h2 : l < u) (h3 : u ≤ b) :
    ∀ x ∈ Set.Icc l u, truncPdf (unif a b h) l u x = 1 / (u - l) := by
  intro x hx
  have hb := unif_between a b h l u h1 h2 h3
  have p1 : 0 < b - a := by linarith
  have p2 : 0 < u - l := by linarith
  rw [trunc_pdf_eq _ _ _ (fun hd => absurd hd (Bool.false_ne_true)) (by rw [hb]; positivity), hb,
    Set.indicator_of_mem (by simpa [between] using hx)]
  show unifPdf a b x / _ = _
  rw [unifPdf, Set.indicator_of_mem (Set.mem_Icc.2 ⟨h1.trans hx.1, hx.2.trans h3⟩)]
  field_simp

private theorem unif_truncEnds (a b : ℝ) (h : a < b) (l u : ℝ) (h1 : a ≤ l) (h3 : u ≤ b) :
    truncEnds (unif a b h) l u = some (l, u) := by
  have e1 : max (unif a b h).lo (l : EReal) = l := max_eq_right (by show (a : EReal) ≤ l; exact_mod_cast h1)
  have e2 : min (unif a b h).hi (u : EReal) = u := min_eq_right (by show (u : EReal) ≤ b; exact_mod_cast h3)
  unfold truncEnds truncSupport
  rw [e1, e2]
  exact fullEnds_finite l u _

/-- C91: a uniform distribution truncated to `[l, u]` reports the exact mean, and a variance that is always too large,
by `(u - l)² / (6 · 999²)`. -/
theorem truncated_uniform (a b : ℝ) (h : a < b) (l u : ℝ) (h1 : a ≤ l) (h2 : l < u) (h3 : u ≤ b) :
    truncMeanC (unif a b h) l u = some ((l + u) / 2) ∧
    truncVarC (unif a b h) l u = some ((u - l) ^ 2 / 12 + (u - l) ^ 2 / (6 * 999 ^ 2)) := by
  have he := unif_truncEnds a b h l u h1 h3
  have hp := unif_trunc_pdf a b h l u h1 h2 h3
  have p2 : u - l ≠ 0 := by linarith
  have hm : truncMeanC (unif a b h) l u = some ((l + u) / 2) := by
    unfold truncMeanC contMean
    rw [he, Option.map_some, Option.some.injEq]
    rw [grid_congr (g := fun x => l / (u - l) + 1 / (u - l) * (x - l) + 0 * (x - l) ^ 2)
      (fun x hx => by rw [hp x hx]; ring) h2.le, grid_quadratic]
    field_simp
    ring
  refine ⟨hm, ?_⟩
  have hm' : contMean (some (l, u)) (truncPdf (unif a b h) l u) = some ((l + u) / 2) := by rw [← he]; exact hm
  unfold truncVarC contVar
  rw [he, hm']
  simp only [Option.some.injEq]
  rw [grid_congr (g := fun x => (u - l) / 4 + (-1) * (x - l) + 1 / (u - l) * (x - l) ^ 2)
    (fun x hx => by rw [hp x hx]; field_simp; ring) h2.le, grid_quadratic]
  field_simp
  ring

/-! ### Hurdle -/

private theorem cont_pos (b : Base) (hd : b.discrete = false) (hb : HurdleBase b) : ∀ᵐ y ∂b.law, y ∈ Set.Ioi (0 : ℝ) := by
  have h0 : b.law {(0 : ℝ)} = 0 := by
    rw [(b.continuous_law hd).2]
    exact withDensity_absolutelyContinuous _ _ (by simp)
  have h0 : ∀ᵐ y ∂b.law, y ≠ 0 := by
    rw [ae_iff]; simpa using h0
  filter_upwards [hb.nonneg, h0] with y h1 h2 using lt_of_le_of_ne h1 (Ne.symm h2)

private theorem hurdle_cont (b : Base) (hd : b.discrete = false) (hb : HurdleBase b) (psi : ℝ) :
    hurdleLaw b.law psi = ENNReal.ofReal (1 - psi) • Measure.dirac 0 + ENNReal.ofReal psi • b.law := by
  unfold hurdleLaw ProbabilityTheory.cond
  have h1 := cont_pos b hd hb
  have : b.law (Set.Ioi 0) = 1 := (prob_compl_eq_zero_iff measurableSet_Ioi).1 (by rw [ae_iff] at h1; exact h1)
  rw [this, inv_one, one_smul, Measure.restrict_eq_self_of_ae_mem h1]

private theorem hurdle_integral (b : Base) (hd : b.discrete = false) (hb : HurdleBase b) (psi : ℝ) (h0 : 0 ≤ psi)
    (h1 : psi ≤ 1) (f : ℝ → ℝ) (hf : Integrable f b.law) :
    ∫ y, f y ∂(hurdleLaw b.law psi) = (1 - psi) * f 0 + psi * ∫ y, f y ∂b.law := by
  rw [hurdle_cont b hd hb, integral_add_measure ((integrable_dirac (by simp)).smul_measure (by simp))
    (hf.smul_measure (by simp)), integral_smul_measure, integral_smul_measure, integral_dirac,
    ENNReal.toReal_ofReal (by linarith), ENNReal.toReal_ofReal h0]
  rfl

/-- the part of the density of a `Hurdle` away from zero, as the code rescales it -/
noncomputable def positivePart (b : Base) (psi x : ℝ) : ℝ := psi * b.pdf x / (1 - b.cdf ((eps : ℝ) : EReal))

private theorem grid_off_zero (f g : ℝ → ℝ) (c : ℝ) (hc : 0 < c) (h : ∀ x, x ≠ 0 → f x = g x) :
    gridIntegral f 0 c = gridIntegral g 0 c + c / 1998 * (f 0 - g 0) := by
  rw [gridIntegral_eq, gridIntegral_eq]
  unfold trapezoidal_integral
  have hs : ∀ k ∈ Finset.range (999 - 1), f (0 + ((k : ℝ) + 1) * (c - 0) / (999 : ℕ)) =
      g (0 + ((k : ℝ) + 1) * (c - 0) / (999 : ℕ)) := by
    intro k _
    apply h
    have : 0 < ((k : ℝ) + 1) * (c - 0) / (999 : ℕ) := by
      have : 0 < c - 0 := by linarith
      positivity
    linarith
  rw [h c hc.ne', Finset.sum_congr rfl hs]
  push_cast
  ring

/-- C91: a `Hurdle` of a continuous base on `[0, c]`: up to the error of the trapezoidal rule, the reported mean is the
mean of the hurdle law times `1 / (1 - F(eps))`; the reported variance misses the contribution `(1 - psi) m²` of the
mass at zero, of which only `m² (1 - psi - q 0) c / 1998` is counted. -/
theorem hurdle_moments_cont (b : Base) (hd : b.discrete = false) (hb : HurdleBase b) (psi : ℝ) (h0 : 0 ≤ psi)
    (h1 : psi ≤ 1) (c : ℝ) (hlo : b.lo = ((0 : ℝ) : EReal)) (hhi : b.hi = (c : EReal)) (z₁ z₂ : ℝ)
    (s₁ : SmoothOn (fun x => x * positivePart b psi x) 0 c z₁)
    (s₂ : ∀ m, hurdleMeanC b psi = some m → SmoothOn (fun x => (x - m) ^ 2 * positivePart b psi x) 0 c z₂) :
    ∃ m v, hurdleMeanC b psi = some m ∧ hurdleVarC b psi = some v ∧
      |m - mean (hurdleLaw b.law psi) / (1 - b.cdf ((eps : ℝ) : EReal))| ≤ slack 0 c z₁ ∧
      |v - ((central (hurdleLaw b.law psi) 2 + (m - mean (hurdleLaw b.law psi)) ^ 2 - (1 - psi) * m ^ 2)
          / (1 - b.cdf ((eps : ℝ) : EReal)) + m ^ 2 * (1 - psi - positivePart b psi 0) * c / 1998)| ≤ slack 0 c z₂ := by
  have hin : ∀ᵐ y ∂b.law, y ∈ Set.Icc (0 : ℝ) c := by
    filter_upwards [b.in_support] with y hy
    rw [hlo, hhi] at hy
    exact ⟨by exact_mod_cast hy.1, by exact_mod_cast hy.2⟩
  have hpos := cont_pos b hd hb
  have hc : 0 < c := by
    obtain ⟨y, hy1, hy2⟩ := (hin.and hpos).exists
    exact lt_of_lt_of_le hy2 hy1.2
  have := hurdle_prob b hb psi h0 h1
  have hin' : ∀ᵐ y ∂(hurdleLaw b.law psi), y ∈ Set.Icc (0 : ℝ) c :=
    hurdle_ae b psi _ ⟨le_rfl, hc.le⟩ (by filter_upwards [hin] with y hy _ using hy)
  have he : hurdleEnds b psi = some (0, c) := by
    unfold hurdleEnds
    rw [hlo, hhi]
    exact fullEnds_finite 0 c _
  have hpdf : ∀ x, x ≠ 0 → hurdlePdf b psi x = positivePart b psi x := fun x hx => by
    unfold hurdlePdf positivePart
    rw [if_neg hx]
  have hpdf0 : hurdlePdf b psi 0 = 1 - psi := by unfold hurdlePdf; rw [if_pos rfl]
  have hdens : ∀ f : ℝ → ℝ, Continuous f → ∫ x in (0:ℝ)..c, f x * positivePart b psi x =
      (∫ y, f y ∂(hurdleLaw b.law psi) - (1 - psi) * f 0) / (1 - b.cdf ((eps : ℝ) : EReal)) := by
    intro f hf
    obtain ⟨hmeas, hlaw⟩ := b.continuous_law hd
    rw [hurdle_integral b hd hb psi h0 h1 f (bounded_integrable b.law 0 c hin f hf)]
    have e := density_integral b.law b.pdf hmeas ⟨b.pdf_nonneg, hlaw⟩ f 0 c hc.le
    rw [Measure.restrict_eq_self_of_ae_mem hin] at e
    rw [e, add_sub_cancel_left, ← intervalIntegral.integral_const_mul, ← intervalIntegral.integral_div]
    congr 1
    ext x
    unfold positivePart
    ring
  have e1 := smooth_error s₁ hc.le
  rw [hdens (fun x => x) continuous_id] at e1
  have hm : hurdleMeanC b psi = some (gridIntegral (fun x => x * positivePart b psi x) 0 c) := by
    unfold hurdleMeanC contMean
    rw [he, Option.map_some, Option.some.injEq]
    rw [grid_off_zero (fun x => x * hurdlePdf b psi x) (fun x => x * positivePart b psi x) c hc
      (fun x hx => by rw [hpdf x hx])]
    ring
  generalize gridIntegral (fun x => x * positivePart b psi x) 0 c = m at *
  have e2 := smooth_error (s₂ m hm) hc.le
  rw [hdens (fun x => (x - m) ^ 2) (by fun_prop), second_moment _ 0 c hin'] at e2
  refine ⟨m, gridIntegral (fun x => (x - m) ^ 2 * positivePart b psi x) 0 c
    + c / 1998 * ((0 - m) ^ 2 * (1 - psi) - (0 - m) ^ 2 * positivePart b psi 0), hm, ?_, ?_, ?_⟩
  · have hm' : contMean (some (0, c)) (hurdlePdf b psi) = some m := by rw [← he]; exact hm
    unfold hurdleVarC contVar
    rw [he, hm']
    simp only [Option.some.injEq]
    rw [grid_off_zero _ (fun x => (x - m) ^ 2 * positivePart b psi x) c hc (fun x hx => by rw [hpdf x hx]), hpdf0]
  · have e3 : (∫ y, y ∂(hurdleLaw b.law psi)) = mean (hurdleLaw b.law psi) := rfl
    rw [e3] at e1
    simpa using e1
  · refine le_trans (le_of_eq (congrArg abs ?_)) e2
    ring

private theorem unif_hurdle (c : ℝ) (h : 0 < c) : HurdleBase (unif 0 c h) := by
  refine ⟨?_, ?_⟩
  · filter_upwards [(unif 0 c h).in_support] with y hy
    have : ((0 : ℝ) : EReal) ≤ y := hy.1
    exact_mod_cast this
  · rw [unif_real 0 c h _ measurableSet_Ioi]
    have : Set.Ioi (0 : ℝ) ∩ Set.Icc 0 c = Set.Ioc 0 c := by
      ext y; simp only [Set.mem_inter_iff, Set.mem_Ioi, Set.mem_Icc, Set.mem_Ioc]; constructor
      · intro hy; exact ⟨hy.1, hy.2.2⟩
      · intro hy; exact ⟨hy.1, hy.1.le, hy.2⟩
    rw [this, Real.volume_real_Ioc, max_eq_left (by linarith)]
    have : 0 < c - 0 := by linarith
    positivity

private theorem unif_moment (c : ℝ) (h : 0 < c) (f : ℝ → ℝ) :
    ∫ y, f y ∂(unif 0 c h).law = 1 / c * ∫ y in (0:ℝ)..c, f y := by
  show ∫ y, f y ∂(volume.withDensity fun x => ENNReal.ofReal (unifPdf 0 c x)) = _
  rw [unif_law 0 c h, integral_smul_measure, ENNReal.toReal_ofReal (by have : 0 < c - 0 := by linarith
                                                                       positivity),
    integral_Icc_eq_integral_Ioc, ← intervalIntegral.integral_of_le h.le, sub_zero, smul_eq_mul]

private theorem unif_integrable (c : ℝ) (h : 0 < c) (f : ℝ → ℝ) (hf : Continuous f) : Integrable f (unif 0 c h).law := by
  refine bounded_integrable _ 0 c ?_ f hf
  filter_upwards [(unif 0 c h).in_support] with y hy
  have h1 : ((0 : ℝ) : EReal) ≤ y := hy.1
  have h2 : (y : EReal) ≤ (c : ℝ) := hy.2
  exact ⟨by exact_mod_cast h1, by exact_mod_cast h2⟩

private theorem unif_eps : (unif 0 1 one_pos).cdf ((eps : ℝ) : EReal) = eps := by
  rw [Base.cdf_coe, unif_real 0 1 one_pos _ measurableSet_Iic]
  have : Set.Iic eps ∩ Set.Icc (0 : ℝ) 1 = Set.Icc 0 eps := by
    have : eps ≤ 1 := by unfold eps; norm_num
    ext y; simp only [Set.mem_inter_iff, Set.mem_Iic, Set.mem_Icc]; constructor
    · intro hy; exact ⟨hy.2.1, hy.1⟩
    · intro hy; exact ⟨hy.2, hy.1, hy.2.trans this⟩
  have h0 : (0 : ℝ) ≤ eps := by unfold eps; positivity
  rw [this, Real.volume_real_Icc, max_eq_left (by linarith)]
  ring

/-- C91: the variance reported by a `Hurdle` of a continuous base is not the variance of the hurdle law: with `psi`
1/2 and the uniform distribution on `[0, 1]` it is less than 0.08, but the variance is 5/48. -/
theorem hurdle_var_cont_wrong : HurdleBase (unif 0 1 one_pos) ∧
    (∃ v, hurdleVarC (unif 0 1 one_pos) (1 / 2) = some v ∧ v < 0.08) ∧
    central (hurdleLaw (unif 0 1 one_pos).law (1 / 2)) 2 = 5 / 48 := by
  have hb := unif_hurdle 1 one_pos
  refine ⟨hb, ?_, ?_⟩
  · have he : hurdleEnds (unif 0 1 one_pos) (1 / 2) = some (0, 1) := fullEnds_finite 0 1 _
    have hp : ∀ x ∈ Set.Icc (0 : ℝ) 1, positivePart (unif 0 1 one_pos) (1 / 2) x = 1 / (2 * (1 - eps)) := by
      intro x hx
      unfold positivePart
      rw [unif_eps]
      show 1 / 2 * unifPdf 0 1 x / _ = _
      rw [unifPdf, Set.indicator_of_mem hx]
      have : 1 - eps ≠ 0 := by unfold eps; norm_num
      field_simp
      norm_num
    have hpdf : ∀ x, x ≠ 0 → hurdlePdf (unif 0 1 one_pos) (1 / 2) x = positivePart (unif 0 1 one_pos) (1 / 2) x :=
      fun x hx => by
        unfold hurdlePdf positivePart
        rw [if_neg hx]
    have hpdf0 : hurdlePdf (unif 0 1 one_pos) (1 / 2) 0 = 1 - 1 / 2 := by unfold hurdlePdf; rw [if_pos rfl]
    have hp0 := hp 0 ⟨le_rfl, zero_le_one⟩
    have e1 : (1 : ℝ) ≤ 1 / (1 - eps) ∧ 1 / (1 - eps) ≤ 1.01 := by unfold eps; constructor <;> norm_num
    have e2 : 1 / (2 * (1 - eps)) = 1 / (1 - eps) / 2 := by
      have : 1 - eps ≠ 0 := by unfold eps; norm_num
      field_simp
    rw [e2] at hp0
    simp_rw [e2] at hp
    generalize 1 / (1 - eps) = κ at *
    have hm : contMean (some (0, 1)) (hurdlePdf (unif 0 1 one_pos) (1 / 2)) = some (κ / 4) := by
      unfold contMean
      rw [Option.map_some, Option.some.injEq, grid_off_zero _
        (fun x => x * positivePart (unif 0 1 one_pos) (1 / 2) x) 1 one_pos (fun x hx => by rw [hpdf x hx]),
        grid_congr (g := fun x => 0 + κ / 2 * (x - 0) + 0 * (x - 0) ^ 2)
        (fun x hx => by rw [hp x hx]; ring) zero_le_one, grid_quadratic]
      ring
    unfold hurdleVarC contVar
    rw [he, hm]
    refine ⟨_, rfl, ?_⟩
    rw [grid_off_zero _ (fun x => (x - κ / 4) ^ 2 * positivePart (unif 0 1 one_pos) (1 / 2) x) 1 one_pos
      (fun x hx => by rw [hpdf x hx]), grid_congr (g := fun x => κ ^ 3 / 32 + (- κ ^ 2 / 4) * (x - 0) + κ / 2 * (x - 0) ^ 2)
      (fun x hx => by rw [hp x hx]; ring) zero_le_one, grid_quadratic, hpdf0, hp0]
    have k0 : 0 < κ := by linarith
    have k2 : 1 ≤ κ ^ 2 := one_le_pow₀ e1.1
    have k3 : κ ^ 2 ≤ 1.01 ^ 2 := pow_le_pow_left₀ k0.le e1.2 2
    have k4 : κ ^ 3 ≤ 1.01 ^ 3 := pow_le_pow_left₀ k0.le e1.2 3
    have k5 : 1 ≤ κ ^ 3 := one_le_pow₀ e1.1
    norm_num
    ring_nf
    norm_num at k3 k4 e1 ⊢
    linarith
  · have hmean : mean (hurdleLaw (unif 0 1 one_pos).law (1 / 2)) = 1 / 4 := by
      unfold mean
      rw [hurdle_integral _ rfl hb _ (by norm_num) (by norm_num) _ (unif_integrable 1 one_pos _ (by fun_prop)),
        unif_moment, integral_id]
      norm_num
    unfold central
    rw [hmean, hurdle_integral _ rfl hb _ (by norm_num) (by norm_num) _ (unif_integrable 1 one_pos _ (by fun_prop)),
      unif_moment]
    have : ∫ y in (0:ℝ)..1, (y - 1 / 4) ^ 2 = 7 / 48 := by
      rw [intervalIntegral.integral_comp_sub_right (fun y => y ^ 2), integral_pow]
      norm_num
    rw [this]
    norm_num

/-! ### Mixture -/

private theorem mixPdf_meas (bs : List Base) (ws : List ℝ) (hd : ∀ b ∈ bs, b.discrete = false) :
    Measurable (mixPdf bs ws) := by
  unfold mixPdf
  generalize mixWeights ws = vs
  induction bs generalizing vs with
  | nil => simp
  | cons b bs ih =>
    cases vs with
    | nil => simp
    | cons v vs =>
      simp only [List.zipWith_cons_cons, List.sum_cons]
      exact (((b.continuous_law (hd b List.mem_cons_self)).1).mul_const v).add
        (ih (fun c hc => hd c (List.mem_cons_of_mem _ hc)) vs)

/-- C91: skewness (`k = 3`) and kurtosis (`k = 4`, before 3 is subtracted) of a `Mixture` of continuous components
with bounded supports and smooth densities are those of the mixture law, up to the error of the trapezoidal rule. -/
theorem mixture_standard_cont (k : ℕ) (bs : List Base) (ws : List ℝ) (h : GoodWeights bs.length ws)
    (hd : ∀ b ∈ bs, b.discrete = false) (ppf : ℝ → Option EReal) (a c : ℝ)
    (hs : mixSupport bs = .ok ((a : EReal), (c : EReal)))
    (hv : central (mixLaw (bs.map Base.law) ws) 2 ≠ 0) (z : ℝ)
    (hz : SmoothOn (fun x => ((x - mean (mixLaw (bs.map Base.law) ws)) /
      Real.sqrt (central (mixLaw (bs.map Base.law) ws) 2)) ^ k * mixPdf bs ws x) a c z) :
    ∃ r, mixStandardC k bs (bs.map fun b => (mean b.law, central b.law 2)) ws ppf = .ok (some r) ∧
      |r - central (mixLaw (bs.map Base.law) ws) k / Real.sqrt (central (mixLaw (bs.map Base.law) ws) 2) ^ k|
        ≤ slack a c z := by
  have hin : ∀ b ∈ bs, ∀ᵐ (y : ℝ) ∂b.law, y ∈ Set.Icc a c := by
    intro b hb
    obtain ⟨h1, h2⟩ := mixSupport_le bs _ _ hs b hb
    filter_upwards [b.in_support] with y hy
    exact ⟨by exact_mod_cast h1.trans hy.1, by exact_mod_cast hy.2.trans h2⟩
  have hac : a ≤ c := by
    rcases bs with - | ⟨b, bs⟩
    · have := h.pos
      have hl := h.len
      rw [List.length_nil, List.length_eq_zero_iff] at hl
      rw [hl] at this
      simp at this
    · obtain ⟨y, hy⟩ := (hin b List.mem_cons_self).exists
      exact hy.1.trans hy.2
  have hint : ∀ f : ℝ → ℝ, Continuous f → ∀ b ∈ bs, Integrable f b.law := fun f hf b hb =>
    bounded_integrable b.law a c (hin b hb) f hf
  obtain ⟨em, ev⟩ := mixture_mean_var bs ws h (hint _ (by fun_prop)) (hint _ (by fun_prop))
  have hsupp : ∀ᵐ (y : ℝ) ∂(mixLaw (bs.map Base.law) ws), y ∈ Set.Icc a c := mix_ae bs ws _ hin
  have hv0 : 0 ≤ central (mixLaw (bs.map Base.law) ws) 2 := integral_nonneg fun y => by positivity
  have hstd : Real.sqrt (central (mixLaw (bs.map Base.law) ws) 2) ≠ 0 := by
    rw [Real.sqrt_ne_zero hv0]; exact hv
  have emm : (bs.map fun b => (mean b.law, central b.law 2)).map Prod.fst = bs.map fun b => mean b.law := by
    rw [List.map_map]; rfl
  have e := smooth_error hz hac
  rw [← density_integral _ _ (mixPdf_meas bs ws hd) (mixture_density bs ws h hd)
    (fun x => ((x - mean (mixLaw (bs.map Base.law) ws)) / Real.sqrt (central (mixLaw (bs.map Base.law) ws) 2)) ^ k)
    a c hac, Measure.restrict_eq_self_of_ae_mem hsupp] at e
  simp only [div_pow, integral_div] at e
  refine ⟨_, ?_, e⟩
  unfold mixStandardC contStandard mixStd
  rw [hs, ev, emm, em, if_neg (by linarith)]
  simp only [Except.ok_bind', Except.pure_eq, fullEnds_finite, if_neg hstd, div_pow]

/-! ### Unbounded hurdle distributions and entropies -/

/-- C91: the grid of a `Hurdle` of a continuous base without mass in `(0, eps]` starts at zero and leaves out a
probability of at most 0.0001; for an unbounded base it ends at the 0.9999 quantile of the hurdle law. -/
theorem hurdle_ends_cont (b : Base) (hb : HurdleBase b) (psi : ℝ) (h0 : 0 < psi)
    (h1 : psi ≤ 1) (hgap : b.cdf ((eps : ℝ) : EReal) = b.cdf ((0 : ℝ) : EReal)) (hne : psi ≠ 0.0001)
    (hlo : b.lo = ((0 : ℝ) : EReal)) (a c : ℝ) (he : hurdleEnds b psi = some (a, c)) :
    a = 0 ∧ (hurdleLaw b.law psi).real (Set.Ioi c) ≤ 0.0001 ∧
    (b.hi = ⊤ → IsQuantile (hurdleLaw b.law psi) 0.9999 c) := by
  have := hurdle_prob b hb psi h0.le h1
  obtain ⟨Q, hQ, hq, -⟩ := hurdle_ppf_partial b (Or.inr hgap) hb psi h0 h1 0.9999 (by norm_num) (by norm_num)
    (Or.inl (by intro h; apply hne; norm_num at h ⊢; linarith))
  have hfull := he
  unfold hurdleEnds at he
  have e1 : a = 0 := by
    rw [hlo] at he
    unfold fullEnds at he
    split at he
    · rename_i x y h2 h3
      simp only [Option.some.injEq, Prod.mk.injEq] at he
      rw [if_neg (by simp)] at h2
      simp [ContMoments.finite] at h2
      linarith [he.1]
    · simp at he
  have e2 : b.hi = ⊤ → Q = (c : EReal) := by
    intro hhi
    rw [hhi] at he
    unfold fullEnds at he
    split at he
    · rename_i x y h2 h3
      simp only [Option.some.injEq, Prod.mk.injEq] at he
      rw [if_pos (by simp)] at h3
      have := finite_some h3
      rw [hQ, he.2] at this
      exact Option.some.inj this
    · simp at he
  have key : Q = (c : EReal) → (hurdleLaw b.law psi).real (Set.Ioi c) ≤ 0.0001 := by
    intro h
    rw [(compl_tail _ _).1]
    have := (hq c).1 h.le
    norm_num at this ⊢
    linarith
  refine ⟨e1, ?_, fun h => e2 h ▸ hq⟩
  rcases (fullEnds_some he).2 with h | h
  · have hz : (hurdleLaw b.law psi) (Set.Ioi c) = 0 := by
      have hc0 : (0 : ℝ) ≤ c := by
        obtain ⟨y, hy1, hy2⟩ := (b.in_support.and hb.nonneg).exists
        have := hy1.2
        rw [h, EReal.coe_le_coe_iff] at this
        linarith
      have hin : ∀ᵐ y ∂(hurdleLaw b.law psi), y ≤ c :=
        hurdle_ae b psi _ hc0 (by
          filter_upwards [b.in_support] with y hy _
          have := hy.2
          rw [h, EReal.coe_le_coe_iff] at this
          exact this)
      rw [ae_iff] at hin
      refine measure_mono_null ?_ hin
      intro y hy
      simpa using hy
    rw [measureReal_def, hz]; norm_num
  · rw [hQ] at h
    exact key (Option.some.inj h)

/-- C91: the mean a `Hurdle` of a continuous base reports, also on an unbounded support: the integral of `y` over the
range of the grid times `1 / (1 - F(eps))`, up to the error of the trapezoidal rule. -/
theorem hurdle_mean_cont (b : Base) (hd : b.discrete = false) (hb : HurdleBase b) (psi : ℝ) (h0 : 0 ≤ psi)
    (h1 : psi ≤ 1) (c : ℝ) (hc : 0 < c) (he : hurdleEnds b psi = some (0, c)) (z : ℝ)
    (s : SmoothOn (fun x => x * positivePart b psi x) 0 c z) :
    ∃ m, hurdleMeanC b psi = some m ∧
      |m - (∫ y in Set.Icc 0 c, y ∂(hurdleLaw b.law psi)) / (1 - b.cdf ((eps : ℝ) : EReal))| ≤ slack 0 c z := by
  have hpdf : ∀ x, x ≠ 0 → hurdlePdf b psi x = positivePart b psi x := fun x hx => by
    unfold hurdlePdf positivePart
    rw [if_neg hx]
  have hm : hurdleMeanC b psi = some (gridIntegral (fun x => x * positivePart b psi x) 0 c) := by
    unfold hurdleMeanC contMean
    rw [he, Option.map_some, Option.some.injEq]
    rw [grid_off_zero (fun x => x * hurdlePdf b psi x) (fun x => x * positivePart b psi x) c hc
      (fun x hx => by rw [hpdf x hx])]
    ring
  refine ⟨_, hm, ?_⟩
  have e1 := smooth_error s hc.le
  obtain ⟨hmeas, hlaw⟩ := b.continuous_law hd
  have e := density_integral b.law b.pdf hmeas ⟨b.pdf_nonneg, hlaw⟩ (fun y => y) 0 c hc.le
  have hsplit : ∫ y in Set.Icc 0 c, y ∂(hurdleLaw b.law psi) = psi * ∫ y in Set.Icc 0 c, y ∂b.law := by
    rw [hurdle_cont b hd hb, Measure.restrict_add, Measure.restrict_smul, Measure.restrict_smul,
      integral_add_measure, integral_smul_measure, integral_smul_measure, ENNReal.toReal_ofReal h0,
      restrict_dirac' measurableSet_Icc, if_pos (Set.mem_Icc.2 ⟨le_rfl, hc.le⟩), integral_dirac, smul_zero, zero_add]
    · rfl
    · rw [restrict_dirac' measurableSet_Icc, if_pos (Set.mem_Icc.2 ⟨le_rfl, hc.le⟩)]
      exact (integrable_dirac (by simp)).smul_measure (by simp)
    · refine Integrable.smul_measure ?_ (by simp)
      exact (continuous_id.continuousOn.integrableOn_compact isCompact_Icc)
  rw [hsplit, e]
  have : ∫ x in (0:ℝ)..c, x * positivePart b psi x =
      psi * (∫ x in (0:ℝ)..c, x * b.pdf x) / (1 - b.cdf ((eps : ℝ) : EReal)) := by
    rw [← intervalIntegral.integral_const_mul, ← intervalIntegral.integral_div]
    congr 1
    ext x
    unfold positivePart
    ring
  rw [← this]
  exact e1

private theorem grid_mem {a c : ℝ} (hac : a ≤ c) : ∀ x ∈ Roulette.linspace a c 1000, x ∈ Set.Icc a c := by
  intro x hx
  unfold Roulette.linspace at hx
  rw [List.mem_map] at hx
  obtain ⟨i, hi, rfl⟩ := hx
  have hi : (i : ℝ) ≤ 999 := by
    have := List.mem_range.1 hi
    have : i ≤ 999 := by omega
    exact_mod_cast this
  have h0 : 0 ≤ c - a := by linarith
  have hi0 : (0 : ℝ) ≤ i := by positivity
  rw [if_neg (by norm_num)]
  push_cast
  constructor
  · have : 0 ≤ (i : ℝ) * ((c - a) / (1000 - 1)) := by
      apply mul_nonneg hi0 (div_nonneg h0 (by norm_num))
    linarith
  · have : (i : ℝ) * ((c - a) / (1000 - 1)) ≤ 999 * ((c - a) / (1000 - 1)) :=
      mul_le_mul_of_nonneg_right hi (div_nonneg h0 (by norm_num))
    linarith

private theorem term_log (p : ℝ) (hp : 0 ≤ p) : -(expOf (logOf p) * (logOf p).getD 0) = Real.negMulLog p := by
  unfold logOf
  by_cases h : p = 0
  · rw [if_pos h, h]; simp [expOf]
  · rw [if_neg h, Option.getD_some]
    simp only [expOf]
    rw [Real.exp_log (lt_of_le_of_ne hp (Ne.symm h)), Real.negMulLog]
    ring

/-- what a `Hurdle` reports as entropy, before the integral is compared with the exact one -/
private theorem hurdle_entropy_grid (b : Base) (psi : ℝ) (h0 : 0 < psi) (h1 : psi < 0.9999)
    (hF : b.cdf ((eps : ℝ) : EReal) < 1) (c : ℝ) (hc : 0 < c) (hQ : hurdlePpf b psi 0.9999 = some (c : EReal))
    (hpos : ∀ x ∈ Set.Icc 0 c, b.pdf x ≠ 0) :
    hurdleEntropyC b psi = some (gridIntegral (fun x => Real.negMulLog (positivePart b psi x)) 0 c
      + c / 1998 * (Real.negMulLog (1 - psi) - Real.negMulLog (positivePart b psi 0))) := by
  have hden : 0 < 1 - b.cdf ((eps : ℝ) : EReal) := by linarith
  have h1' : psi < 1 := by norm_num at h1; linarith
  have hends : restrictedEnds (hurdlePpf b psi) = some (0, c) := by
    have : hurdlePpf b psi 0.0001 = some 0 := by
      unfold hurdlePpf
      dsimp only
      rw [if_neg (show ¬ ((0.0001 : ℝ) < 0 ∨ (0.0001 : ℝ) > 1) by norm_num),
        if_neg (show ¬ ((0.0001 : ℝ) ≥ 1 - psi) by norm_num at h1 ⊢; linarith)]
    unfold restrictedEnds
    rw [this, hQ]
    simp [ContMoments.finite]
  have hpdf : ∀ x, x ≠ 0 → hurdlePdf b psi x = positivePart b psi x := fun x hx => by
    unfold hurdlePdf positivePart
    rw [if_neg hx]
  have hpdf0 : hurdlePdf b psi 0 = 1 - psi := by unfold hurdlePdf; rw [if_pos rfl]
  have hposp : ∀ x ∈ Set.Icc 0 c, 0 < hurdlePdf b psi x := by
    intro x hx
    by_cases hx0 : x = 0
    · rw [hx0, hpdf0]; linarith
    · rw [hpdf x hx0]
      unfold positivePart
      have := lt_of_le_of_ne (b.pdf_nonneg x) (Ne.symm (hpos x hx))
      positivity
  have hlog : ∀ x, hurdleLogpdf b psi x = logOf (hurdlePdf b psi x) := fun x => hurdle_logpdf b psi h0.le x hF
  have hany : ((Roulette.linspace 0 c 1000).any fun x => (hurdleLogpdf b psi x).isNone) = false := by
    rw [List.any_eq_false]
    intro x hx
    rw [hlog x, logOf, if_neg (hposp x (grid_mem hc.le x hx)).ne']
    simp
  unfold hurdleEntropyC
  rw [hends, Option.bind_some]
  dsimp only
  rw [hany, if_neg (by simp), Option.some.injEq, ← neg_one_mul, ← gridIntegral_smul]
  rw [grid_congr (g := fun x => Real.negMulLog (hurdlePdf b psi x)) (fun x hx => by
      rw [hlog x, neg_one_mul, term_log _ (hposp x hx).le]) hc.le,
    grid_off_zero _ (fun x => Real.negMulLog (positivePart b psi x)) c hc (fun x hx => by rw [hpdf x hx]), hpdf0]

/-- C91: the entropy a `Hurdle` of a continuous base reports: the integral of `-p log p` over the positive values only,
up to the 0.9999 quantile, of the rescaled density; of the contribution `-(1 - psi) log (1 - psi)` of the mass at zero
only the fraction `c / 1998` is counted. -/
theorem hurdle_entropy_cont (b : Base) (psi : ℝ) (h0 : 0 < psi) (h1 : psi < 0.9999)
    (hF : b.cdf ((eps : ℝ) : EReal) < 1) (c : ℝ) (hc : 0 < c) (hQ : hurdlePpf b psi 0.9999 = some (c : EReal))
    (hpos : ∀ x ∈ Set.Icc 0 c, b.pdf x ≠ 0) (z : ℝ)
    (hz : SmoothOn (fun x => Real.negMulLog (positivePart b psi x)) 0 c z) :
    ∃ r, hurdleEntropyC b psi = some r ∧
      |r - ((∫ x in (0 : ℝ)..c, Real.negMulLog (positivePart b psi x))
        + c / 1998 * (Real.negMulLog (1 - psi) - Real.negMulLog (positivePart b psi 0)))| ≤ slack 0 c z := by
  refine ⟨_, hurdle_entropy_grid b psi h0 h1 hF c hc hQ hpos, ?_⟩
  rw [add_sub_add_right_eq_sub]
  exact smooth_error hz hc.le

/-- C91: the entropy of a mixture of continuous components is the integral of `-p log p` between the points that
`ppf` gives for 0.0001 and 0.9999, up to the error of the trapezoidal rule, also where the density vanishes. -/
theorem mixture_entropy_cont (bs : List Base) (ws : List ℝ) (h : GoodWeights bs.length ws) (ppf : ℝ → Option EReal)
    (a c : ℝ) (hac : a ≤ c) (ha : ppf 0.0001 = some (a : EReal)) (hc : ppf 0.9999 = some (c : EReal)) (z : ℝ)
    (hz : SmoothOn (fun x => Real.negMulLog (mixPdf bs ws x)) a c z) :
    ∃ r, mixEntropyC bs ws ppf = some r ∧ |r - ∫ x in a..c, Real.negMulLog (mixPdf bs ws x)| ≤ slack a c z := by
  have hends : restrictedEnds ppf = some (a, c) := by
    unfold restrictedEnds
    rw [ha, hc]
    simp [ContMoments.finite]
  refine ⟨_, ?_, smooth_error hz hac⟩
  unfold mixEntropyC
  rw [hends, Option.map_some, Option.some.injEq]
  dsimp only
  rw [← neg_one_mul, ← gridIntegral_smul]
  refine grid_congr (fun x hx => ?_) hac
  have hnn : 0 ≤ mixPdf bs ws x := by
    unfold mixPdf mixWeights
    rw [zipWith_div]
    apply List.sum_nonneg
    intro y hy
    rw [List.mem_map] at hy
    obtain ⟨p, hp, rfl⟩ := hy
    exact mul_nonneg (p.1.pdf_nonneg x) (div_nonneg (h.nonneg _ (List.of_mem_zip hp).2) h.pos.le)
  rw [neg_one_mul, mixture_logpdf bs ws h, term_log _ hnn]

private theorem unif_quantile (q : ℝ) (q0 : 0 < q) (q1 : q < 1) : (unif 0 1 one_pos).ppf q = (q : EReal) := by
  have h : IsQuantile (unif 0 1 one_pos).law q ((unif 0 1 one_pos).ppf q) := fun x =>
    (unif 0 1 one_pos).ppf_inverse q q0 q1.le x
  refine Lemmas.quantile_unique h ?_
  intro x
  rw [unif_real 0 1 one_pos _ measurableSet_Iic, EReal.coe_le_coe_iff]
  have e2 : Set.Iic x ∩ Set.Icc (0 : ℝ) 1 = Set.Icc 0 (min x 1) := by
    ext y; simp only [Set.mem_inter_iff, Set.mem_Iic, Set.mem_Icc, le_min_iff]; tauto
  rw [e2, Real.volume_real_Icc, sub_zero, sub_zero, div_one, le_max_iff, le_min_iff]
  constructor
  · intro h; exact Or.inl ⟨h, q1.le⟩
  · rintro (h | h)
    · exact h.1
    · linarith

/-- C91, what fails: with `psi` 1/2 and the uniform distribution on `[0, 1]` a `Hurdle` reports an entropy below 0.36;
the mass at zero and the positive values together have the entropy `log 2`, more than 0.69. -/
theorem hurdle_entropy_cont_wrong : (∃ r, hurdleEntropyC (unif 0 1 one_pos) (1 / 2) = some r ∧ r < 0.36) ∧
    Real.negMulLog (1 - 1 / 2) + ∫ x in (0 : ℝ)..1, Real.negMulLog (1 / 2 * (unif 0 1 one_pos).pdf x) = Real.log 2 ∧
    0.69 < Real.log 2 := by
  have heps : 0 < eps ∧ eps < 0.001 := by unfold eps; constructor <;> norm_num
  have hhalf : Real.negMulLog (1 / 2) = Real.log 2 / 2 := by
    rw [Real.negMulLog, one_div, Real.log_inv]; ring
  have hl := Real.log_two_gt_d9
  have hl' := Real.log_two_lt_d9
  have hpdf1 : ∀ x ∈ Set.Icc (0 : ℝ) 1, (unif 0 1 one_pos).pdf x = 1 := by
    intro x hx
    show unifPdf 0 1 x = 1
    rw [unifPdf, Set.indicator_of_mem hx]
    norm_num
  refine ⟨?_, ?_, by norm_num at hl ⊢; linarith⟩
  · set c : ℝ := eps + (0.9999 - (1 - 1 / 2)) * (1 - eps) / (1 / 2) with hcdef
    have hc0 : 0 < c := by rw [hcdef]; norm_num; linarith
    have hc1 : c < 1 := by rw [hcdef]; norm_num; linarith
    have hQ : hurdlePpf (unif 0 1 one_pos) (1 / 2) 0.9999 = some (c : EReal) := by
      have hdis : (unif 0 1 one_pos).discrete = false := rfl
      unfold hurdlePpf
      simp only [hdis, Bool.false_eq_true, if_false]
      rw [if_neg (by norm_num), if_pos (by norm_num), unif_eps, ← hcdef, unif_quantile c hc0 hc1]
    have hp : ∀ x ∈ Set.Icc (0 : ℝ) 1, positivePart (unif 0 1 one_pos) (1 / 2) x = 1 / (1 - eps) / 2 := by
      intro x hx
      unfold positivePart
      rw [unif_eps, hpdf1 x hx]
      ring
    have h := hurdle_entropy_grid (unif 0 1 one_pos) (1 / 2) (by norm_num) (by norm_num)
      (by rw [unif_eps]; linarith) c hc0 hQ (fun x hx => by
        rw [hpdf1 x ⟨hx.1, hx.2.trans hc1.le⟩]; norm_num)
    refine ⟨_, h, ?_⟩
    rw [hp 0 ⟨le_rfl, zero_le_one⟩, grid_congr (g := fun x => Real.negMulLog (1 / (1 - eps) / 2) + 0 * (x - 0)
      + 0 * (x - 0) ^ 2) (fun x hx => by rw [hp x ⟨hx.1, hx.2.trans hc1.le⟩]; ring) hc0.le, grid_quadratic]
    have e1 : (1 : ℝ) ≤ 1 / (1 - eps) ∧ 1 / (1 - eps) ≤ 1.01 := by unfold eps; constructor <;> norm_num
    generalize 1 / (1 - eps) = κ at *
    have hk : Real.negMulLog (κ / 2) ≤ 1.01 / 2 * Real.log 2 ∧ 0 ≤ Real.negMulLog (κ / 2) := by
      have hk0 : 0 < κ := by linarith
      have hlk : 0 ≤ Real.log κ := Real.log_nonneg e1.1
      have hlk2 : Real.log κ ≤ Real.log 2 := Real.log_le_log hk0 (by norm_num at e1 ⊢; linarith)
      have : Real.negMulLog (κ / 2) = κ / 2 * (Real.log 2 - Real.log κ) := by
        rw [Real.negMulLog, Real.log_div hk0.ne' two_ne_zero]; ring
      rw [this]
      constructor
      · have : κ / 2 * (Real.log 2 - Real.log κ) ≤ κ / 2 * Real.log 2 :=
          mul_le_mul_of_nonneg_left (by linarith) (by linarith)
        nlinarith [e1.2]
      · exact mul_nonneg (by linarith) (by linarith)
    generalize Real.negMulLog (κ / 2) = N at *
    rw [show (1 : ℝ) - 1 / 2 = 1 / 2 by norm_num, hhalf]
    have n1 : N ≤ 0.3501 := by norm_num at hk hl' ⊢; linarith
    have n2 : (c - 0) * N ≤ N := by nlinarith [hk.2]
    have n3 : c / 1998 * (Real.log 2 / 2 - N) ≤ 1 / 1998 * 0.35 := by
      have : Real.log 2 / 2 - N ≤ 0.35 := by norm_num at hl' ⊢; linarith [hk.2]
      calc c / 1998 * (Real.log 2 / 2 - N) ≤ c / 1998 * 0.35 := mul_le_mul_of_nonneg_left this (by positivity)
        _ ≤ 1 / 1998 * 0.35 := by
          apply mul_le_mul_of_nonneg_right _ (by norm_num)
          apply div_le_div_of_nonneg_right hc1.le (by norm_num)
    norm_num at n1 n3 ⊢
    linarith
  · have : ∀ x ∈ Set.uIcc (0 : ℝ) 1, Real.negMulLog (1 / 2 * (unif 0 1 one_pos).pdf x) = Real.log 2 / 2 := by
      intro x hx
      rw [Set.uIcc_of_le zero_le_one] at hx
      rw [hpdf1 x hx, mul_one, hhalf]
    rw [intervalIntegral.integral_congr this, intervalIntegral.integral_const]
    rw [show (1 : ℝ) - 1 / 2 = 1 / 2 by norm_num, hhalf]
    simp

/-! ### The hypotheses can be met -/

private theorem smooth_quadratic (α β γ a c : ℝ) (hac : a < c) :
    SmoothOn (fun x => α + β * x + γ * x ^ 2) a c |2 * γ| := by
  have hcd : ContDiff ℝ 2 (fun x : ℝ => α + β * x + γ * x ^ 2) := by fun_prop
  refine ⟨hcd.contDiffOn, fun x hx => le_of_eq ?_⟩
  rw [iteratedDerivWithin_eq_iteratedDeriv (uniqueDiffOn_Icc hac) hcd.contDiffAt hx, iteratedDeriv_succ,
    iteratedDeriv_one]
  have h1 : deriv (fun x : ℝ => α + β * x + γ * x ^ 2) = fun x => β + γ * (2 * x) := by
    ext y
    have : HasDerivAt (fun x : ℝ => α + β * x + γ * x ^ 2) (0 + β * 1 + γ * (2 * y)) y := by
      refine HasDerivAt.add (HasDerivAt.add (hasDerivAt_const _ _) ((hasDerivAt_id y).const_mul β)) ?_
      simpa using (hasDerivAt_pow 2 y).const_mul γ
    rw [this.deriv]; ring
  have h2 : HasDerivAt (fun x => β + γ * (2 * x)) (0 + γ * (2 * 1)) x :=
    (hasDerivAt_const _ _).add (((hasDerivAt_id x).const_mul 2).const_mul γ)
  rw [h1, h2.deriv]
  congr 1
  ring

private theorem smooth_congr {f g : ℝ → ℝ} {a c z : ℝ} (h : SmoothOn g a c z) (e : ∀ x ∈ Set.Icc a c, f x = g x) :
    SmoothOn f a c z := by
  refine ⟨h.1.congr e, fun x hx => ?_⟩
  rw [iteratedDerivWithin_congr e hx]
  exact h.2 x hx

-- a uniform distribution on [0, 1], truncated to [1/4, 3/4]
example : ∃ m v, truncMeanC (unif 0 1 one_pos) ((1 / 4 : ℝ) : EReal) ((3 / 4 : ℝ) : EReal) = some m ∧
    truncVarC (unif 0 1 one_pos) ((1 / 4 : ℝ) : EReal) ((3 / 4 : ℝ) : EReal) = some v ∧
    |m - mean (truncLaw (unif 0 1 one_pos).law ((1 / 4 : ℝ) : EReal) ((3 / 4 : ℝ) : EReal))| ≤ slack (1 / 4) (3 / 4) 0 ∧
    |v - central (truncLaw (unif 0 1 one_pos).law ((1 / 4 : ℝ) : EReal) ((3 / 4 : ℝ) : EReal)) 2| ≤
      slack (1 / 4) (3 / 4) 4 + slack (1 / 4) (3 / 4) 0 ^ 2 := by
  have hp := unif_trunc_pdf 0 1 one_pos (1 / 4) (3 / 4) (by norm_num) (by norm_num) (by norm_num)
  refine truncated_moments_cont (unif 0 1 one_pos) rfl _ _
    (by rw [unif_between 0 1 one_pos (1 / 4) (3 / 4) (by norm_num) (by norm_num) (by norm_num)]; norm_num)
    (1 / 4) (3 / 4) (max_eq_right ?_) (min_eq_right ?_) 0 4 ?_ ?_
  · show ((0 : ℝ) : EReal) ≤ _
    exact_mod_cast (by norm_num : (0 : ℝ) ≤ 1 / 4)
  · show _ ≤ ((1 : ℝ) : EReal)
    exact_mod_cast (by norm_num : (3 / 4 : ℝ) ≤ 1)
  · have := smooth_quadratic 0 2 0 (1 / 4) (3 / 4) (by norm_num)
    rw [mul_zero, abs_zero] at this
    exact smooth_congr this fun x hx => by rw [hp x hx]; norm_num; ring
  · intro m _
    have := smooth_quadratic (2 * m ^ 2) (-4 * m) 2 (1 / 4) (3 / 4) (by norm_num)
    rw [show |(2 : ℝ) * 2| = 4 by norm_num] at this
    exact smooth_congr this fun x hx => by rw [hp x hx]; norm_num; ring

-- the grid of the same distribution
example : truncEnds (unif 0 1 one_pos) ((1 / 4 : ℝ) : EReal) ((3 / 4 : ℝ) : EReal) = some (1 / 4, 3 / 4) :=
  unif_truncEnds 0 1 one_pos (1 / 4) (3 / 4) (by norm_num) (by norm_num)

-- a hurdle of a uniform distribution
example : SmoothOn (fun x => x * positivePart (unif 0 1 one_pos) (1 / 2) x) 0 1 0 := by
  have := smooth_quadratic 0 (1 / 2 / (1 - eps)) 0 0 1 (by norm_num)
  rw [mul_zero, abs_zero] at this
  refine smooth_congr this fun x hx => ?_
  unfold positivePart
  rw [unif_eps]
  show x * (1 / 2 * unifPdf 0 1 x / _) = _
  rw [unifPdf, Set.indicator_of_mem hx]
  norm_num
  ring

private theorem smooth_exists (f : ℝ → ℝ) (a c : ℝ) (hac : a < c) (hf : ContDiffOn ℝ 2 f (Set.Icc a c)) :
    ∃ z, SmoothOn f a c z := by
  obtain ⟨z, hz⟩ := (isCompact_Icc (a := a) (b := c)).exists_bound_of_continuousOn
    (hf.continuousOn_iteratedDerivWithin (m := 2) le_rfl (uniqueDiffOn_Icc hac))
  exact ⟨z, hf, hz⟩

-- its skewness
example : ∃ z r, truncStandardC 3 (unif 0 1 one_pos) ((1 / 4 : ℝ) : EReal) ((3 / 4 : ℝ) : EReal) = some r ∧
    |r - ∫ y, ((y - 1 / 2) / Real.sqrt ((1 / 2) ^ 2 / 12 + (1 / 2) ^ 2 / (6 * 999 ^ 2))) ^ 3
      ∂(truncLaw (unif 0 1 one_pos).law ((1 / 4 : ℝ) : EReal) ((3 / 4 : ℝ) : EReal))| ≤ slack (1 / 4) (3 / 4) z := by
  have hp := unif_trunc_pdf 0 1 one_pos (1 / 4) (3 / 4) (by norm_num) (by norm_num) (by norm_num)
  have hu := truncated_uniform 0 1 one_pos (1 / 4) (3 / 4) (by norm_num) (by norm_num) (by norm_num)
  rw [show ((1 / 4 + 3 / 4) / 2 : ℝ) = 1 / 2 by norm_num, show (3 / 4 - 1 / 4 : ℝ) = 1 / 2 by norm_num] at hu
  obtain ⟨z, hz⟩ := smooth_exists (fun x =>
    ((x - 1 / 2) / Real.sqrt ((1 / 2) ^ 2 / 12 + (1 / 2) ^ 2 / (6 * 999 ^ 2))) ^ 3 * (1 / (3 / 4 - 1 / 4)))
    (1 / 4) (3 / 4) (by norm_num) (by fun_prop)
  refine ⟨z, truncated_standard_cont 3 (unif 0 1 one_pos) rfl _ _
    (by rw [unif_between 0 1 one_pos (1 / 4) (3 / 4) (by norm_num) (by norm_num) (by norm_num)]; norm_num)
    (1 / 4) (3 / 4) (max_eq_right ?_) (min_eq_right ?_) _ _ hu.1 hu.2 (by norm_num) z
    (smooth_congr hz fun x hx => by rw [hp x hx])⟩
  · show ((0 : ℝ) : EReal) ≤ _
    exact_mod_cast (by norm_num : (0 : ℝ) ≤ 1 / 4)
  · show _ ≤ ((1 : ℝ) : EReal)
    exact_mod_cast (by norm_num : (3 / 4 : ℝ) ≤ 1)

-- the entropy of a uniform distribution, truncated where it ends
example : ∃ r, truncEntropyC (unif 0 1 one_pos) ((0 : ℝ) : EReal) ((1 : ℝ) : EReal) = some r ∧
    |r - ∫ x in (0.0001 : ℝ)..0.9999,
      Real.negMulLog (truncPdf (unif 0 1 one_pos) ((0 : ℝ) : EReal) ((1 : ℝ) : EReal) x)| ≤ slack 0.0001 0.9999 0 := by
  have hp := unif_trunc_pdf 0 1 one_pos 0 1 le_rfl one_pos le_rfl
  have hb := unif_between 0 1 one_pos 0 1 le_rfl one_pos le_rfl
  have hq : ∀ q : ℝ, 0 < q → q < 1 →
      IsQuantile (truncLaw (unif 0 1 one_pos).law ((0 : ℝ) : EReal) ((1 : ℝ) : EReal)) q (q : EReal) := by
    intro q q0 q1 x
    have hin : ∀ᵐ y ∂(unif 0 1 one_pos).law, y ∈ between ((0 : ℝ) : EReal) ((1 : ℝ) : EReal) := (unif 0 1 one_pos).in_support
    have hone : (unif 0 1 one_pos).law (between ((0 : ℝ) : EReal) ((1 : ℝ) : EReal)) = 1 := by
      rw [measureReal_def, sub_zero, div_one] at hb
      rwa [ENNReal.toReal_eq_one_iff] at hb
    have e : truncLaw (unif 0 1 one_pos).law ((0 : ℝ) : EReal) ((1 : ℝ) : EReal) = (unif 0 1 one_pos).law := by
      unfold truncLaw ProbabilityTheory.cond
      rw [hone, inv_one, one_smul, Measure.restrict_eq_self_of_ae_mem hin]
    rw [e, unif_real 0 1 one_pos _ measurableSet_Iic, EReal.coe_le_coe_iff]
    have e2 : Set.Iic x ∩ Set.Icc (0 : ℝ) 1 = Set.Icc 0 (min x 1) := by
      ext y; simp only [Set.mem_inter_iff, Set.mem_Iic, Set.mem_Icc, le_min_iff]; tauto
    rw [e2, Real.volume_real_Icc, sub_zero, sub_zero, div_one, le_max_iff, le_min_iff]
    constructor
    · intro h; exact Or.inl ⟨h, q1.le⟩
    · rintro (h | h)
      · exact h.1
      · linarith
  have hsub : ∀ x ∈ Set.Icc (0.0001 : ℝ) 0.9999, x ∈ Set.Icc (0 : ℝ) 1 := fun x hx =>
    ⟨by have := hx.1; norm_num at this; linarith, by have := hx.2; norm_num at this; linarith⟩
  refine truncated_entropy_cont (unif 0 1 one_pos) rfl _ _ (by rw [hb]; norm_num) 0.0001 0.9999
    (hq _ (by norm_num) (by norm_num)) (hq _ (by norm_num) (by norm_num))
    (fun x hx => by rw [hp x (hsub x hx)]; norm_num) 0 ?_
  have := smooth_quadratic 0 0 0 0.0001 0.9999 (by norm_num)
  rw [mul_zero, abs_zero] at this
  exact smooth_congr this fun x hx => by rw [hp x (hsub x hx)]; simp

-- a mixture of two uniform distributions
example : ∃ z r, mixStandardC 3 [unif 0 1 one_pos, unif 0 1 one_pos]
      ([unif 0 1 one_pos, unif 0 1 one_pos].map fun b => (mean b.law, central b.law 2)) [1, 3] (fun _ => none) = .ok (some r) ∧
    |r - central (mixLaw ([unif 0 1 one_pos, unif 0 1 one_pos].map Base.law) [1, 3]) 3 /
      Real.sqrt (central (mixLaw ([unif 0 1 one_pos, unif 0 1 one_pos].map Base.law) [1, 3]) 2) ^ 3| ≤ slack 0 1 z := by
  have hw : GoodWeights [unif 0 1 one_pos, unif 0 1 one_pos].length [1, 3] :=
    ⟨rfl, by intro w hw; simp at hw; rcases hw with rfl | rfl <;> norm_num, by norm_num⟩
  have hm : mean (unif 0 1 one_pos).law = 1 / 2 := by
    unfold mean; rw [unif_moment, integral_id]; norm_num
  have hc : central (unif 0 1 one_pos).law 2 = 1 / 12 := by
    unfold central
    rw [hm, unif_moment, intervalIntegral.integral_comp_sub_right (fun y => y ^ 2), integral_pow]
    norm_num
  have hv : central (mixLaw ([unif 0 1 one_pos, unif 0 1 one_pos].map Base.law) [1, 3]) 2 = 1 / 12 := by
    rw [← (mixture_mean_var _ _ hw (by
      intro b hb; simp at hb; rw [hb]; exact unif_integrable 1 one_pos _ (by fun_prop)) (by
      intro b hb; simp at hb; rw [hb]; exact unif_integrable 1 one_pos _ (by fun_prop))).2]
    simp only [List.map_cons, List.map_nil, hm, hc, mixVar, mixMean, mixWeights]
    norm_num
  obtain ⟨z, hz⟩ := smooth_exists (fun x =>
    ((x - mean (mixLaw ([unif 0 1 one_pos, unif 0 1 one_pos].map Base.law) [1, 3])) /
      Real.sqrt (central (mixLaw ([unif 0 1 one_pos, unif 0 1 one_pos].map Base.law) [1, 3]) 2)) ^ 3)
    0 1 one_pos (by fun_prop)
  refine ⟨z, mixture_standard_cont 3 _ _ hw (by intro b hb; simp at hb; rw [hb]; rfl) _ 0 1 ?_ (by rw [hv]; norm_num) z
    (smooth_congr hz fun x hx => ?_)⟩
  · show Except.ok (min ((0 : ℝ) : EReal) ((0 : ℝ) : EReal), max ((1 : ℝ) : EReal) ((1 : ℝ) : EReal)) = _
    rw [min_self, max_self]
  · have : mixPdf [unif 0 1 one_pos, unif 0 1 one_pos] [1, 3] x = 1 := by
      show (List.zipWith (fun (b : Base) w => b.pdf x * w) [unif 0 1 one_pos, unif 0 1 one_pos] (mixWeights [1, 3])).sum = 1
      have hx' : (unif 0 1 one_pos).pdf x = 1 := by
        show unifPdf 0 1 x = 1
        rw [unifPdf, Set.indicator_of_mem hx]; norm_num
      simp only [mixWeights, List.map_cons, List.map_nil, List.zipWith_cons_cons, List.zipWith_nil_left, hx']
      norm_num
    rw [this, mul_one]

/-- a base on the half line whose mass lies in `[1, 2]` -/
private noncomputable def farBase : Base :=
  { unif 1 2 (by norm_num) with
    lo := ((0 : ℝ) : EReal)
    hi := ⊤
    in_support := by
      filter_upwards [(unif 1 2 (by norm_num)).in_support] with y hy
      have h1 : ((1 : ℝ) : EReal) ≤ y := hy.1
      have h1 : (1 : ℝ) ≤ y := by exact_mod_cast h1
      exact ⟨by exact_mod_cast (by linarith : (0 : ℝ) ≤ y), le_top⟩ }

-- the hypotheses on the range of the grid of an unbounded hurdle distribution
example : HurdleBase farBase ∧ farBase.cdf ((eps : ℝ) : EReal) = farBase.cdf ((0 : ℝ) : EReal) ∧
    farBase.lo = ((0 : ℝ) : EReal) ∧ ∃ c, 0 < c ∧ hurdleEnds farBase (1 / 2) = some (0, c) := by
  have hlaw : ∀ A, MeasurableSet A → farBase.law.real A = volume.real (A ∩ Set.Icc 1 2) / (2 - 1) := fun A hA =>
    unif_real 1 2 (by norm_num) A hA
  have hz : ∀ x : ℝ, x < 1 → farBase.cdf (x : EReal) = 0 := by
    intro x hx
    rw [Base.cdf_coe, hlaw _ measurableSet_Iic]
    have : Set.Iic x ∩ Set.Icc (1 : ℝ) 2 = ∅ := by
      ext y; simp only [Set.mem_inter_iff, Set.mem_Iic, Set.mem_Icc, Set.mem_empty_iff_false, iff_false]
      rintro ⟨h1, h2, -⟩; linarith
    rw [this]; simp
  have hb : HurdleBase farBase := by
    refine ⟨?_, ?_⟩
    · filter_upwards [farBase.in_support] with y hy
      have h1 : ((0 : ℝ) : EReal) ≤ y := hy.1
      exact_mod_cast h1
    · rw [hurdle_tail, hz 0 (by norm_num)]; norm_num
  have e0 := hz 0 (by norm_num)
  have e1 := hz eps (by unfold eps; norm_num)
  refine ⟨hb, by rw [e0, e1], rfl, ?_⟩
  have hq : farBase.ppf 0.9998 = ((1.9998 : ℝ) : EReal) := by
    have h : IsQuantile farBase.law 0.9998 (farBase.ppf 0.9998) := fun x =>
      farBase.ppf_inverse _ (by norm_num) (by norm_num) x
    refine Lemmas.quantile_unique h ?_
    intro x
    rw [hlaw _ measurableSet_Iic, EReal.coe_le_coe_iff]
    have e2 : Set.Iic x ∩ Set.Icc (1 : ℝ) 2 = Set.Icc 1 (min x 2) := by
      ext y; simp only [Set.mem_inter_iff, Set.mem_Iic, Set.mem_Icc, le_min_iff]; tauto
    rw [e2, Real.volume_real_Icc, show (2 : ℝ) - 1 = 1 by norm_num, div_one, le_max_iff]
    constructor
    · intro h
      norm_num at h
      rcases le_total x 2 with h2 | h2
      · rw [min_eq_left h2]; left; norm_num; linarith
      · rw [min_eq_right h2]; left; norm_num
    · intro h
      have := min_le_left x 2
      norm_num at h ⊢
      linarith
  refine ⟨1.9998, by norm_num, ?_⟩
  have hdis : farBase.discrete = false := rfl
  have hQ : hurdlePpf farBase (1 / 2) 0.9999 = some ((1.9998 : ℝ) : EReal) := by
    unfold hurdlePpf
    simp only [hdis, Bool.false_eq_true, if_false]
    rw [if_neg (by norm_num), if_pos (by norm_num), e1, ← hq]
    norm_num
  show fullEnds ((0 : ℝ) : EReal) ⊤ (hurdlePpf farBase (1 / 2)) = _
  simp only [fullEnds, hQ]
  simp [ContMoments.finite]

-- the entropy of a mixture of two uniform distributions, on a part where its density is constant
example : ∃ r, mixEntropyC [unif 0 1 one_pos, unif 0 1 one_pos] [1, 3] (fun q => some (q : ℝ)) = some r ∧
    |r - ∫ x in (0.0001 : ℝ)..0.9999, Real.negMulLog (mixPdf [unif 0 1 one_pos, unif 0 1 one_pos] [1, 3] x)|
      ≤ slack 0.0001 0.9999 0 := by
  refine mixture_entropy_cont _ _ ⟨rfl, by simp, by norm_num⟩ _ _ _ (by norm_num) rfl rfl 0 ?_
  have := smooth_quadratic 0 0 0 0.0001 0.9999 (by norm_num)
  rw [mul_zero, abs_zero] at this
  refine smooth_congr this fun x hx => ?_
  have hx : x ∈ Set.Icc (0 : ℝ) 1 :=
    ⟨by have := hx.1; norm_num at this; linarith, by have := hx.2; norm_num at this; linarith⟩
  have h1 : (unif 0 1 one_pos).pdf x = 1 := by
    show unifPdf 0 1 x = 1
    rw [unifPdf, Set.indicator_of_mem hx]
    norm_num
  simp only [mixPdf, mixWeights, List.map_cons, List.map_nil, List.sum_cons, List.sum_nil, List.zipWith_cons_cons,
    List.zipWith_nil_left, h1]
  norm_num

end Verif.Props
