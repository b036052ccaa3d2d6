import Verif.Lemmas.ModifierBase
import Mathlib.MeasureTheory.Constructions.BorelSpace.Order
import Mathlib.MeasureTheory.Constructions.Pi

/-! # Inverse transform sampling -/

namespace Verif.Lemmas
open Verif MeasureTheory Verif.Spec Verif.Modifier ProbabilityTheory

/-- a uniform number from the unit interval -/
noncomputable def unit01 : Measure ℝ := volume.restrict (Set.Ioo 0 1)

instance : IsProbabilityMeasure unit01 := ⟨by simp [unit01]⟩

theorem quantile_unique {μ : Measure ℝ} {q : ℝ} {Q R : EReal} (h : IsQuantile μ q Q)
    (h' : IsQuantile μ q R) : Q = R := by
  have key : ∀ {Q R : EReal}, IsQuantile μ q Q → IsQuantile μ q R → Q ≤ R := by
    intro Q R h h'
    by_contra hlt
    push Not at hlt
    obtain ⟨x, h1, h2⟩ := EReal.lt_iff_exists_real_btwn.1 hlt
    exact absurd ((h x).2 ((h' x).1 h1.le)) (not_le.2 h2)
  exact le_antisymm (key h h') (key h' h)

theorem quantile_finite (μ : Measure ℝ) [IsProbabilityMeasure μ] {q : ℝ} (h0 : 0 < q) (h1 : q < 1) :
    quantile μ q ≠ ⊤ ∧ quantile μ q ≠ ⊥ := by
  constructor
  · have h := (tendsto_cdf_atTop μ).eventually (lt_mem_nhds h1)
    obtain ⟨x, hx⟩ := h.exists
    rw [cdf_eq_real] at hx
    have := (quantile_spec μ q x).2 hx.le
    intro h
    rw [h] at this
    exact absurd this (by simp)
  · have h := (tendsto_cdf_atBot μ).eventually (gt_mem_nhds h0)
    obtain ⟨x, hx⟩ := h.exists
    rw [cdf_eq_real] at hx
    intro h
    have := (quantile_spec μ q x).1 (by rw [h]; exact bot_le)
    linarith

/-- the quantile function as a function of real numbers -/
noncomputable def quantReal (μ : Measure ℝ) (q : ℝ) : ℝ :=
  if q ∈ Set.Ioo (0 : ℝ) 1 then (quantile μ q).toReal else 0

theorem quantReal_le (μ : Measure ℝ) [IsProbabilityMeasure μ] {q : ℝ} (hq : q ∈ Set.Ioo (0 : ℝ) 1)
    (x : ℝ) : quantReal μ q ≤ x ↔ q ≤ μ.real (Set.Iic x) := by
  obtain ⟨h1, h2⟩ := quantile_finite μ hq.1 hq.2
  rw [quantReal, if_pos hq, ← quantile_spec μ q x]
  conv_rhs => rw [← EReal.coe_toReal h1 h2]
  exact EReal.coe_le_coe_iff.symm

theorem quantReal_measurable (μ : Measure ℝ) [IsProbabilityMeasure μ] : Measurable (quantReal μ) := by
  apply measurable_of_Iic
  intro x
  have : quantReal μ ⁻¹' Set.Iic x =
      (Set.Ioo 0 1 ∩ Set.Iic (μ.real (Set.Iic x))) ∪ ((Set.Ioo 0 1)ᶜ ∩ {_q : ℝ | (0 : ℝ) ≤ x}) := by
    ext q
    by_cases hq : q ∈ Set.Ioo (0 : ℝ) 1
    · simp only [Set.mem_preimage, Set.mem_Iic, quantReal_le μ hq, Set.mem_union, Set.mem_inter_iff, hq,
        true_and, Set.mem_compl_iff, not_true, false_and, or_false]
    · simp only [Set.mem_preimage, Set.mem_Iic, quantReal, Set.mem_union, Set.mem_inter_iff,
        hq, false_and, Set.mem_compl_iff, not_false_eq_true, true_and, false_or, Set.mem_ofPred_eq, if_false]
  rw [this]
  exact (measurableSet_Ioo.inter measurableSet_Iic).union
    (measurableSet_Ioo.compl.inter (MeasurableSet.const _))

theorem quantReal_law (μ : Measure ℝ) [IsProbabilityMeasure μ] : unit01.map (quantReal μ) = μ := by
  have : IsProbabilityMeasure (unit01.map (quantReal μ)) :=
    Measure.isProbabilityMeasure_map (quantReal_measurable μ).aemeasurable
  apply Measure.ext_of_Iic
  intro x
  rw [Measure.map_apply (quantReal_measurable μ) measurableSet_Iic, unit01,
    Measure.restrict_apply (quantReal_measurable μ measurableSet_Iic)]
  have hF0 : 0 ≤ μ.real (Set.Iic x) := measureReal_nonneg
  have hF1 : μ.real (Set.Iic x) ≤ 1 := measureReal_le_one
  have : quantReal μ ⁻¹' Set.Iic x ∩ Set.Ioo 0 1 = Set.Ioo 0 1 ∩ Set.Iic (μ.real (Set.Iic x)) := by
    ext q
    constructor
    · rintro ⟨h1, h2⟩
      exact ⟨h2, (quantReal_le μ h2 x).1 h1⟩
    · rintro ⟨h1, h2⟩
      exact ⟨(quantReal_le μ h1 x).2 h2, h1⟩
  rw [this]
  have hae : (Set.Ioo 0 1 ∩ Set.Iic (μ.real (Set.Iic x)) : Set ℝ) =ᵐ[volume]
      Set.Ioc 0 (μ.real (Set.Iic x)) := by
    have h1 : ∀ᵐ q : ℝ, q ≠ 1 := by simp [ae_iff]
    filter_upwards [h1] with q hq
    apply propext
    constructor
    · rintro ⟨⟨a, b⟩, c⟩; exact ⟨a, c⟩
    · rintro ⟨a, c⟩
      have c : q ≤ μ.real (Set.Iic x) := c
      exact ⟨⟨a, lt_of_le_of_ne (c.trans hF1) hq⟩, c⟩
  rw [measure_congr hae, Real.volume_Ioc, sub_zero, measureReal_def, ENNReal.ofReal_toReal]
  exact measure_ne_top _ _

/-- a function that is almost everywhere the quantile turns uniform numbers into draws from the
law -/
theorem inverse_law (μ : Measure ℝ) [IsProbabilityMeasure μ] (f : ℝ → Option EReal)
    (hf : ∀ᵐ q ∂unit01, ∃ Q, f q = some Q ∧ IsQuantile μ q Q) :
    AEMeasurable (fun q => ((f q).getD 0).toReal) unit01 ∧
      unit01.map (fun q => ((f q).getD 0).toReal) = μ ∧
      ∀ᵐ q ∂unit01, ∃ x : ℝ, f q = some (x : EReal) := by
  have hin : ∀ᵐ q ∂unit01, q ∈ Set.Ioo (0 : ℝ) 1 := ae_restrict_mem measurableSet_Ioo
  have he : (fun q => ((f q).getD 0).toReal) =ᵐ[unit01] quantReal μ := by
    filter_upwards [hf, hin] with q hq hi
    obtain ⟨Q, h1, h2⟩ := hq
    rw [h1, quantReal, if_pos hi]
    have : Q = quantile μ q := quantile_unique h2 (quantile_spec μ q)
    rw [this]
    rfl
  refine ⟨⟨_, quantReal_measurable μ, he⟩, ?_, ?_⟩
  · rw [Measure.map_congr he, quantReal_law]
  · filter_upwards [hf, hin] with q hq hi
    obtain ⟨Q, h1, h2⟩ := hq
    have : Q = quantile μ q := quantile_unique h2 (quantile_spec μ q)
    obtain ⟨a, b⟩ := quantile_finite μ hi.1 hi.2
    exact ⟨(quantile μ q).toReal, by rw [h1, this, EReal.coe_toReal a b]⟩

end Verif.Lemmas
