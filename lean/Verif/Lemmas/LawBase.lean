import Verif.Spec.Law
import Mathlib.MeasureTheory.Integral.Lebesgue.Countable
import Mathlib.MeasureTheory.Function.L1Space.Integrable
import Mathlib.MeasureTheory.Measure.Haar.NormedSpace
import Mathlib.MeasureTheory.Measure.Lebesgue.Integral
import Mathlib.MeasureTheory.Integral.Bochner.SumMeasure
import Mathlib.MeasureTheory.Function.JacobianOneDim
import Mathlib.Analysis.SpecialFunctions.ExpDeriv
import Mathlib.Tactic

/-!
# From raw moments of a density to `HasMoments`
-/

namespace Verif.Law
open MeasureTheory Verif.Spec

/-- integrable, with this integral -/
def HI (g : ℝ → ℝ) (c : ℝ) : Prop := Integrable g ∧ ∫ x, g x = c

theorem HI.congr {g h : ℝ → ℝ} {c : ℝ} (H : HI g c) (e : ∀ x, g x = h x) : HI h c := by
  obtain rfl : g = h := funext e
  exact H

theorem HI.add {g h : ℝ → ℝ} {c d : ℝ} (H : HI g c) (K : HI h d) : HI (fun x => g x + h x) (c + d) :=
  ⟨H.1.add K.1, by rw [integral_add H.1 K.1, H.2, K.2]⟩

theorem HI.cmul {g : ℝ → ℝ} {c : ℝ} (k : ℝ) (H : HI g c) : HI (fun x => k * g x) (k * c) :=
  ⟨H.1.const_mul k, by rw [integral_const_mul, H.2]⟩

theorem HI.val {g : ℝ → ℝ} {c d : ℝ} (H : HI g c) (e : c = d) : HI g d := e ▸ H

/-- mass one, first and second raw moment -/
structure Raw (f : ℝ → ℝ) (m q : ℝ) : Prop where
  meas : Measurable f
  nonneg : ∀ x, 0 ≤ f x
  one : HI f 1
  first : HI (fun x => x * f x) m
  second : HI (fun x => x ^ 2 * f x) q

theorem Raw.congr {f g : ℝ → ℝ} {m q : ℝ} (H : Raw f m q) (e : ∀ x, f x = g x) : Raw g m q := by
  obtain rfl : f = g := funext e
  exact H

theorem ofPdf_integral {f : ℝ → ℝ} (hm : Measurable f) (h0 : ∀ x, 0 ≤ f x) (g : ℝ → ℝ) :
    ∫ x, g x ∂ofPdf f = ∫ x, g x * f x := by
  rw [ofPdf, integral_withDensity_eq_integral_toReal_smul hm.ennreal_ofReal
    (Filter.Eventually.of_forall fun x => ENNReal.ofReal_lt_top)]
  refine integral_congr_ae (Filter.Eventually.of_forall fun x => ?_)
  simp only [ENNReal.toReal_ofReal (h0 x), smul_eq_mul]
  ring

theorem ofPdf_integrable {f : ℝ → ℝ} (hm : Measurable f) (h0 : ∀ x, 0 ≤ f x) (g : ℝ → ℝ) :
    Integrable g (ofPdf f) ↔ Integrable fun x => g x * f x := by
  rw [ofPdf, integrable_withDensity_iff hm.ennreal_ofReal
    (Filter.Eventually.of_forall fun x => ENNReal.ofReal_lt_top)]
  simp only [ENNReal.toReal_ofReal (h0 _)]

theorem Raw.moments {f : ℝ → ℝ} {m q : ℝ} (H : Raw f m q) : HasMoments (ofPdf f) m (q - m ^ 2) := by
  have hc : HI (fun x => (x - m) ^ 2 * f x) (q - m ^ 2) := by
    refine ((H.second.add (H.first.cmul (-2 * m))).add (H.one.cmul (m ^ 2))).congr (fun x => ?_) |>.val ?_
    all_goals ring
  refine ⟨⟨?_⟩, ?_, ?_, ?_, ?_⟩
  · rw [ofPdf, withDensity_apply _ MeasurableSet.univ, Measure.restrict_univ,
      ← ofReal_integral_eq_lintegral_ofReal H.one.1 (Filter.Eventually.of_forall H.nonneg), H.one.2, ENNReal.ofReal_one]
  · exact (ofPdf_integrable H.meas H.nonneg _).mpr H.first.1
  · rw [ofPdf_integral H.meas H.nonneg, H.first.2]
  · exact (ofPdf_integrable H.meas H.nonneg _).mpr hc.1
  · rw [ofPdf_integral H.meas H.nonneg, hc.2]

theorem HI.affine {g : ℝ → ℝ} {c : ℝ} (H : HI g c) (a : ℝ) {b : ℝ} (hb : 0 < b) :
    HI (fun x => g ((x - a) / b)) (b * c) := by
  have h1 : Integrable fun x => g (x / b) := H.1.comp_div hb.ne'
  refine ⟨h1.comp_sub_right a, ?_⟩
  rw [integral_sub_right_eq_self (fun x => g (x / b)) a, Measure.integral_comp_div, H.2, abs_of_pos hb, smul_eq_mul]

/-- shifting and scaling -/
theorem Raw.affine {f : ℝ → ℝ} {m q : ℝ} (H : Raw f m q) (a : ℝ) {b : ℝ} (hb : 0 < b) :
    Raw (fun x => 1 / b * f ((x - a) / b)) (a + b * m) (a ^ 2 + 2 * a * b * m + b ^ 2 * q) := by
  have k0 := (H.one.affine a hb).cmul (1 / b)
  have k1 := (H.first.affine a hb).cmul (1 / b)
  have k2 := (H.second.affine a hb).cmul (1 / b)
  refine ⟨?_, fun x => mul_nonneg (by positivity) (H.nonneg _), ?_, ?_, ?_⟩
  · exact (H.meas.comp (by fun_prop)).const_mul _
  · exact k0.val (by field_simp)
  · refine ((k0.cmul a).add (k1.cmul b)).congr (fun x => ?_) |>.val (by field_simp)
    field_simp; ring
  · refine (((k0.cmul (a ^ 2)).add (k1.cmul (2 * a * b))).add (k2.cmul (b ^ 2))).congr (fun x => ?_) |>.val (by field_simp)
    field_simp; ring

/-! ## Densities on a part of the line -/

/-- integrable on a set, with this integral over it -/
def HIs (s : Set ℝ) (g : ℝ → ℝ) (c : ℝ) : Prop := IntegrableOn g s ∧ ∫ x in s, g x = c

theorem HIs.congr {s : Set ℝ} (hs : MeasurableSet s) {g h : ℝ → ℝ} {c : ℝ} (H : HIs s g c) (e : ∀ x ∈ s, g x = h x) :
    HIs s h c :=
  ⟨H.1.congr_fun e hs, by rw [← H.2]; exact (setIntegral_congr_fun hs e).symm⟩

theorem HIs.add {s : Set ℝ} {g h : ℝ → ℝ} {c d : ℝ} (H : HIs s g c) (K : HIs s h d) :
    HIs s (fun x => g x + h x) (c + d) :=
  ⟨H.1.add K.1, by rw [integral_add H.1 K.1, H.2, K.2]⟩

theorem HIs.cmul {s : Set ℝ} {g : ℝ → ℝ} {c : ℝ} (k : ℝ) (H : HIs s g c) : HIs s (fun x => k * g x) (k * c) :=
  ⟨H.1.const_mul k, by rw [integral_const_mul, H.2]⟩

theorem HIs.val {s : Set ℝ} {g : ℝ → ℝ} {c d : ℝ} (H : HIs s g c) (e : c = d) : HIs s g d := e ▸ H

theorem HIs.all {s : Set ℝ} (hs : MeasurableSet s) {g : ℝ → ℝ} {c : ℝ} (H : HIs s g c) : HI (s.indicator g) c :=
  ⟨(integrable_indicator_iff hs).mpr H.1, by rw [integral_indicator hs, H.2]⟩

theorem HIs.split {s : Set ℝ} (hs : MeasurableSet s) {g : ℝ → ℝ} {c d : ℝ} (H : HIs s g c) (K : HIs sᶜ g d) :
    HI g (c + d) := by
  have hi : Integrable g := by
    rw [← integrableOn_univ, ← Set.union_compl_self s]
    exact H.1.union K.1
  exact ⟨hi, by rw [← integral_add_compl hs hi, H.2, K.2]⟩

theorem HI.neg {g : ℝ → ℝ} {c : ℝ} (H : HI g c) : HI (fun x => g (-x)) c :=
  ⟨H.1.comp_neg, by rw [integral_neg_eq_self g, H.2]⟩

theorem HIs.neg {g : ℝ → ℝ} {c : ℝ} (H : HIs (Set.Ioi 0) g c) : HIs (Set.Iio 0) (fun x => g (-x)) c := by
  have h := (H.all measurableSet_Ioi).neg
  have e : (fun x => (Set.Ioi 0).indicator g (-x)) = (Set.Iio (0 : ℝ)).indicator fun x => g (-x) := by
    funext x
    by_cases hx : x < 0
    · simp [Set.indicator, hx]
    · simp [Set.indicator, hx]
  rw [e] at h
  exact ⟨(integrable_indicator_iff measurableSet_Iio).mp h.1, by rw [← integral_indicator measurableSet_Iio, h.2]⟩

theorem Raw.on {s : Set ℝ} (hs : MeasurableSet s) {g : ℝ → ℝ} {m q : ℝ} (hm : Measurable g) (h0 : ∀ x ∈ s, 0 ≤ g x)
    (i0 : HIs s g 1) (i1 : HIs s (fun x => x * g x) m) (i2 : HIs s (fun x => x ^ 2 * g x) q) :
    Raw (s.indicator g) m q := by
  refine ⟨hm.indicator hs, fun x => Set.indicator_nonneg h0 x, i0.all hs, ?_, ?_⟩
  · refine (i1.all hs).congr fun x => ?_
    by_cases hx : x ∈ s <;> simp [hx]
  · refine (i2.all hs).congr fun x => ?_
    by_cases hx : x ∈ s <;> simp [hx]

/-- the value at one point does not matter -/
theorem Raw.ae {f g : ℝ → ℝ} {m q : ℝ} (H : Raw f m q) (hm : Measurable g) (h0 : ∀ x, 0 ≤ g x) (x0 : ℝ)
    (e : ∀ x, x ≠ x0 → f x = g x) : Raw g m q := by
  have ea : ∀ᵐ x : ℝ, f x = g x := by
    filter_upwards [(Set.countable_singleton x0).ae_notMem volume] with x hx
    exact e x hx
  have key : ∀ (k : ℝ → ℝ) (c : ℝ), HI (fun x => k x * f x) c → HI (fun x => k x * g x) c := by
    intro k c h
    have : (fun x => k x * f x) =ᵐ[volume] fun x => k x * g x := by
      filter_upwards [ea] with x hx
      rw [hx]
    exact ⟨h.1.congr this, by rw [← integral_congr_ae this, h.2]⟩
  refine ⟨hm, h0, ?_, key _ _ H.first, key _ _ H.second⟩
  have := key (fun _ => 1) 1 (H.one.congr fun x => (one_mul _).symm)
  exact this.congr fun x => one_mul _

/-- substitution of the exponential -/
theorem HIs.exp {g : ℝ → ℝ} {c : ℝ} : HIs (Set.Ioi 0) g c ↔ HI (fun z => Real.exp z * g (Real.exp z)) c := by
  have hd : ∀ x ∈ (Set.univ : Set ℝ), HasDerivWithinAt Real.exp (Real.exp x) Set.univ x := fun x _ =>
    (Real.hasDerivAt_exp x).hasDerivWithinAt
  have hi : Set.InjOn Real.exp Set.univ := Real.exp_injective.injOn
  have e : Real.exp '' Set.univ = Set.Ioi 0 := by rw [Set.image_univ, Real.range_exp]
  have h1 := integrableOn_image_iff_integrableOn_abs_deriv_smul MeasurableSet.univ hd hi g
  have h2 := integral_image_eq_integral_abs_deriv_smul MeasurableSet.univ hd hi g
  rw [e] at h1 h2
  simp only [Real.abs_exp, smul_eq_mul, integrableOn_univ, Measure.restrict_univ] at h1 h2
  unfold HIs HI
  rw [h1, h2]

/-! ## Mass functions -/

theorem pmf_moments {f : ℤ → ℝ} {m q : ℝ} (h0 : ∀ k, 0 ≤ f k) (s0 : HasSum f 1) (s1 : HasSum (fun k : ℤ => (k : ℝ) * f k) m)
    (s2 : HasSum (fun k : ℤ => (k : ℝ) ^ 2 * f k) q) : HasMoments (ofPmf f) m (q - m ^ 2) := by
  have key : ∀ (g : ℝ → ℝ) (_ : Measurable g) (c : ℝ), HasSum (fun k : ℤ => g k * f k) c →
      Integrable g (ofPmf f) ∧ ∫ x, g x ∂ofPmf f = c := by
    intro g hg c hc
    have hi : ∀ k : ℤ, Integrable g (ENNReal.ofReal (f k) • Measure.dirac (k : ℝ)) := fun k =>
      (integrable_dirac (by simp)).smul_measure ENNReal.ofReal_ne_top
    have hn : ∀ k : ℤ, ∫ x, g x ∂(ENNReal.ofReal (f k) • Measure.dirac (k : ℝ)) = g k * f k := by
      intro k
      rw [integral_smul_measure, integral_dirac, ENNReal.toReal_ofReal (h0 k), smul_eq_mul, mul_comm]
    have hI : Integrable g (ofPmf f) := by
      rw [ofPmf, integrable_sum_measure_iff]
      refine ⟨hi, ?_⟩
      refine hc.summable.abs.congr fun k => ?_
      rw [integral_smul_measure, integral_dirac, ENNReal.toReal_ofReal (h0 k), smul_eq_mul, abs_mul, abs_of_nonneg (h0 k),
        Real.norm_eq_abs, mul_comm]
    refine ⟨hI, ?_⟩
    have := hasSum_integral_measure hI
    simp only [hn] at this
    exact this.unique hc
  have hc : HasSum (fun k : ℤ => ((k : ℝ) - m) ^ 2 * f k) (q - m ^ 2) := by
    have := ((s2.add (s1.mul_left (-2 * m))).add (s0.mul_left (m ^ 2)))
    convert this using 1
    · funext k; ring
    · ring
  have k1 := key (fun x => x) (by fun_prop) _ s1
  have k2 := key (fun x => (x - m) ^ 2) (by fun_prop) _ hc
  refine ⟨⟨?_⟩, k1.1, k1.2, k2.1, k2.2⟩
  rw [ofPmf, Measure.sum_apply _ MeasurableSet.univ]
  simp only [Measure.smul_apply, measure_univ, smul_eq_mul, mul_one]
  rw [← ENNReal.ofReal_tsum_of_nonneg h0 s0.summable, s0.tsum_eq, ENNReal.ofReal_one]

/-- a mass function on the natural numbers -/
theorem nat_moments {f : ℕ → ℝ} {m q : ℝ} (h0 : ∀ k, 0 ≤ f k) (s0 : HasSum f 1) (s1 : HasSum (fun k : ℕ => (k : ℝ) * f k) m)
    (s2 : HasSum (fun k : ℕ => (k : ℝ) ^ 2 * f k) q) :
    HasMoments (ofPmf fun k => if k < 0 then 0 else f k.toNat) m (q - m ^ 2) := by
  have key : ∀ (g : ℝ → ℝ) (c : ℝ), HasSum (fun k : ℕ => g k * f k) c →
      HasSum (fun k : ℤ => g k * (if k < 0 then 0 else f k.toNat)) c := by
    intro g c hc
    have hinj : Function.Injective (fun k : ℕ => (k : ℤ)) := Nat.cast_injective
    refine (hinj.hasSum_iff ?_).mp ?_
    · intro k hk
      have : k < 0 := by
        by_contra h
        exact hk ⟨k.toNat, by simp; omega⟩
      simp [this]
    · refine hc.congr_fun ?_
      intro k
      simp
  refine pmf_moments (fun k => ?_) ?_ ?_ ?_
  · split_ifs
    · exact le_rfl
    · exact h0 _
  · simpa using key (fun _ => 1) 1 (by simpa using s0)
  · exact key (fun x => x) m s1
  · exact key (fun x => x ^ 2) q s2

end Verif.Law
