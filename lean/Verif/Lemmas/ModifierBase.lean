import Verif.Lemmas.Modifier
import Mathlib.Probability.CDF

/-!
Every probability law on the integers, and every law with a measurable density, satisfies the
contract `Base`; concrete bases used in the examples.
-/

namespace Verif.Modifier
open Verif MeasureTheory Verif.Spec

/-- the generalised inverse of the cdf -/
noncomputable def quantile (μ : Measure ℝ) (q : ℝ) : EReal :=
  ⨅ x ∈ {x : ℝ | q ≤ μ.real (Set.Iic x)}, (x : EReal)

theorem quantile_spec (μ : Measure ℝ) [IsProbabilityMeasure μ] (q x : ℝ) :
    quantile μ q ≤ (x : EReal) ↔ q ≤ μ.real (Set.Iic x) := by
  constructor
  · intro h
    have hx : ∀ x' : ℝ, x < x' → q ≤ ProbabilityTheory.cdf μ x' := by
      intro x' hx'
      have : quantile μ q < (x' : EReal) := lt_of_le_of_lt h (by exact_mod_cast hx')
      unfold quantile at this
      rw [iInf_lt_iff] at this
      obtain ⟨z, hz⟩ := this
      rw [iInf_lt_iff] at hz
      obtain ⟨hz1, hz2⟩ := hz
      have hz1 : q ≤ μ.real (Set.Iic z) := hz1
      rw [← ProbabilityTheory.cdf_eq_real] at hz1
      exact hz1.trans (ProbabilityTheory.monotone_cdf μ (by exact_mod_cast hz2.le))
    rw [← ProbabilityTheory.cdf_eq_real]
    have hr : ContinuousWithinAt (ProbabilityTheory.cdf μ) (Set.Ioi x) x :=
      ((ProbabilityTheory.cdf μ).right_continuous x).mono Set.Ioi_subset_Ici_self
    refine ge_of_tendsto hr ?_
    filter_upwards [self_mem_nhdsWithin] with x' hx'
    exact hx x' hx'
  · intro h
    exact iInf₂_le x h

/-- any law carried by the integers is a discrete base -/
noncomputable def discreteBase (μ : Measure ℝ) [IsProbabilityMeasure μ] (lo hi : EReal)
    (hs : ∀ᵐ (y : ℝ) ∂μ, lo ≤ (y : EReal) ∧ (y : EReal) ≤ hi)
    (hz : ∀ᵐ (y : ℝ) ∂μ, ∃ k : ℤ, y = k) : Base where
  law := μ
  prob := inferInstance
  discrete := true
  lo := lo
  hi := hi
  pdf := fun x => μ.real {x}
  ppf := quantile μ
  pdf_nonneg := fun _ => measureReal_nonneg
  in_support := hs
  discrete_law := fun _ => ⟨hz, fun _ => rfl⟩
  continuous_law := by simp
  ppf_inverse := fun q _ _ x => quantile_spec μ q x

/-- the uniform law on {0, ..., n} -/
noncomputable def diceLaw (n : ℕ) : Measure ℝ :=
  ∑ k ∈ Finset.range (n + 1), ENNReal.ofReal (1 / ((n : ℝ) + 1)) • Measure.dirac (k : ℝ)

instance (n : ℕ) : IsProbabilityMeasure (diceLaw n) := by
  constructor
  simp only [diceLaw, Measure.coe_finset_sum, Finset.sum_apply, Measure.smul_apply,
    measure_univ, smul_eq_mul, mul_one, Finset.sum_const, Finset.card_range, nsmul_eq_mul]
  rw [show ((n + 1 : ℕ) : ENNReal) = ENNReal.ofReal ((n : ℝ) + 1) by
    rw [ENNReal.ofReal_add (by positivity) (by positivity)]; simp]
  rw [← ENNReal.ofReal_mul (by positivity)]
  rw [mul_one_div_cancel (by positivity)]
  simp

theorem diceLaw_ae (n : ℕ) (P : ℝ → Prop) (h : ∀ k : ℕ, k ≤ n → P k) : ∀ᵐ y ∂diceLaw n, P y := by
  rw [ae_iff]
  simp only [diceLaw, Measure.coe_finset_sum, Finset.sum_apply, Measure.smul_apply, smul_eq_mul]
  apply Finset.sum_eq_zero
  intro k hk
  have : Measure.dirac (k : ℝ) {a | ¬ P a} = 0 := by
    rw [Measure.dirac_apply]
    simp [h k (by simpa [Nat.lt_succ_iff] using hk)]
  simp [this]

noncomputable def dice (n : ℕ) : Base :=
  discreteBase (diceLaw n) 0 (n : ℝ)
    (diceLaw_ae n _ fun k hk => ⟨by exact_mod_cast Nat.zero_le k, by exact_mod_cast hk⟩)
    (diceLaw_ae n _ fun k _ => ⟨k, by simp⟩)

theorem diceLaw_real (n : ℕ) (A : Set ℝ) [DecidablePred (· ∈ A)] :
    (diceLaw n).real A
      = ∑ k ∈ Finset.range (n + 1), if (k : ℝ) ∈ A then 1 / ((n : ℝ) + 1) else 0 := by
  rw [measureReal_def]
  simp only [diceLaw, Measure.coe_finset_sum, Finset.sum_apply, Measure.smul_apply, smul_eq_mul]
  rw [ENNReal.toReal_sum]
  · apply Finset.sum_congr rfl
    intro k _
    rw [Measure.dirac_apply, ENNReal.toReal_mul, ENNReal.toReal_ofReal (by positivity)]
    by_cases h : (k : ℝ) ∈ A <;> simp [h]
  · intro k _
    rw [Measure.dirac_apply]
    by_cases h : (k : ℝ) ∈ A <;> simp [h]

/-- any law with a measurable density is a continuous base -/
noncomputable def densityBase (f : ℝ → ℝ) (hf : Measurable f) (h0 : ∀ x, 0 ≤ f x) (lo hi : EReal)
    [IsProbabilityMeasure (volume.withDensity fun x => ENNReal.ofReal (f x))]
    (hs : ∀ᵐ (y : ℝ) ∂(volume.withDensity fun x => ENNReal.ofReal (f x)),
      lo ≤ (y : EReal) ∧ (y : EReal) ≤ hi) : Base where
  law := volume.withDensity fun x => ENNReal.ofReal (f x)
  prob := inferInstance
  discrete := false
  lo := lo
  hi := hi
  pdf := f
  ppf := quantile (volume.withDensity fun x => ENNReal.ofReal (f x))
  pdf_nonneg := h0
  in_support := hs
  discrete_law := by simp
  continuous_law := fun _ => ⟨hf, rfl⟩
  ppf_inverse := fun q _ _ x => quantile_spec _ q x

/-- the uniform density on [a, b] -/
noncomputable def unifPdf (a b : ℝ) : ℝ → ℝ := Set.indicator (Set.Icc a b) fun _ => 1 / (b - a)

theorem unif_law (a b : ℝ) (h : a < b) :
    (volume.withDensity fun x => ENNReal.ofReal (unifPdf a b x))
      = ENNReal.ofReal (1 / (b - a)) • volume.restrict (Set.Icc a b) := by
  have : (fun x => ENNReal.ofReal (unifPdf a b x))
      = Set.indicator (Set.Icc a b) fun _ => ENNReal.ofReal (1 / (b - a)) := by
    ext x
    by_cases hx : x ∈ Set.Icc a b <;> simp [unifPdf, hx]
  rw [this, withDensity_indicator measurableSet_Icc, withDensity_const]

theorem unif_prob (a b : ℝ) (h : a < b) :
    IsProbabilityMeasure (volume.withDensity fun x => ENNReal.ofReal (unifPdf a b x)) := by
  constructor
  rw [unif_law a b h]
  simp only [Measure.smul_apply, Measure.restrict_apply_univ, Real.volume_Icc, smul_eq_mul]
  have : 0 < b - a := by linarith
  rw [← ENNReal.ofReal_mul (by positivity)]
  simp [this.ne']

/-- uniform on [-1, 1] -/
noncomputable def unif (a b : ℝ) (h : a < b) : Base :=
  haveI := unif_prob a b h
  densityBase (unifPdf a b) (by unfold unifPdf; exact measurable_const.indicator measurableSet_Icc)
    (by intro x; unfold unifPdf; apply Set.indicator_nonneg; intro _ _
        have : 0 < b - a := by linarith
        positivity)
    a b (by
      rw [unif_law a b h]
      apply Measure.ae_smul_measure
      filter_upwards [ae_restrict_mem measurableSet_Icc] with y hy
      exact ⟨by exact_mod_cast hy.1, by exact_mod_cast hy.2⟩)

theorem unif_real (a b : ℝ) (h : a < b) (A : Set ℝ) (hA : MeasurableSet A) :
    (unif a b h).law.real A = volume.real (A ∩ Set.Icc a b) / (b - a) := by
  have h' : 0 < b - a := by linarith
  show (volume.withDensity fun x => ENNReal.ofReal (unifPdf a b x)).real A = _
  rw [unif_law a b h, measureReal_def]
  simp only [Measure.smul_apply, Measure.restrict_apply hA, smul_eq_mul]
  rw [ENNReal.toReal_mul, ENNReal.toReal_ofReal (by positivity), measureReal_def]
  ring

end Verif.Modifier
