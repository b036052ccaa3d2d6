import Verif.Spec.Modifier
import Mathlib.MeasureTheory.Constructions.BorelSpace.Real
import Mathlib.MeasureTheory.Measure.Real
import Mathlib.Topology.Instances.EReal.Lemmas

namespace Verif.Modifier
open Verif MeasureTheory Verif.Spec

theorem meas_le (e : EReal) : MeasurableSet {y : ℝ | (y : EReal) ≤ e} :=
  measurableSet_le measurable_coe_real_ereal measurable_const
theorem meas_ge (e : EReal) : MeasurableSet {y : ℝ | e ≤ (y : EReal)} :=
  measurableSet_le measurable_const measurable_coe_real_ereal
theorem meas_gt (e : EReal) : MeasurableSet {y : ℝ | e < (y : EReal)} :=
  measurableSet_lt measurable_const measurable_coe_real_ereal
theorem meas_lt (e : EReal) : MeasurableSet {y : ℝ | (y : EReal) < e} :=
  measurableSet_lt measurable_coe_real_ereal measurable_const
theorem meas_between (l u : EReal) : MeasurableSet (between l u) :=
  (meas_ge l).inter (meas_le u)

theorem Base.cdf_coe (b : Base) (x : ℝ) : b.cdf (x : EReal) = b.law.real (Set.Iic x) := by
  unfold Base.cdf
  congr 1; ext y; simp

theorem Base.cdf_mono (b : Base) {x y : EReal} (h : x ≤ y) : b.cdf x ≤ b.cdf y :=
  measureReal_mono (fun _ hz => le_trans hz h) (measure_ne_top _ _)

theorem Base.cdf_nonneg (b : Base) (x : EReal) : 0 ≤ b.cdf x := measureReal_nonneg
theorem Base.cdf_le_one (b : Base) (x : EReal) : b.cdf x ≤ 1 := measureReal_le_one

theorem Base.cdf_top (b : Base) : b.cdf ⊤ = 1 := by simp [Base.cdf]
theorem Base.cdf_bot (b : Base) : b.cdf ⊥ = 0 := by simp [Base.cdf]

theorem Base.mass_gap (b : Base) {e f : EReal} (h : e ≤ f) :
    b.law.real {y : ℝ | e < (y : EReal) ∧ (y : EReal) ≤ f} = b.cdf f - b.cdf e := by
  have : {y : ℝ | e < (y : EReal) ∧ (y : EReal) ≤ f}
      = {y : ℝ | (y : EReal) ≤ f} \ {y : ℝ | (y : EReal) ≤ e} := by
    ext y; simp [and_comm]
  have hsub : {y : ℝ | (y : EReal) ≤ e} ⊆ {y : ℝ | (y : EReal) ≤ f} := fun y hy => le_trans hy h
  rw [this, measureReal_sdiff hsub (meas_le e)]
  rfl

/-- continuous laws have no atoms -/
theorem Base.atomless (b : Base) (hc : b.discrete = false) (x : ℝ) : b.law {x} = 0 := by
  obtain ⟨_, h⟩ := b.continuous_law hc
  rw [h]
  exact withDensity_absolutelyContinuous _ _ (by simp)

/-- Just below the lower bound: strictly above the adjusted bound is the same as at or above the
bound, up to null sets. -/
theorem Base.adjust_ae (b : Base) (l : EReal) (hl : b.discrete = true → Whole l) :
    ∀ᵐ (y : ℝ) ∂b.law, adjustLower b.discrete l < (y : EReal) ↔ l ≤ (y : EReal) := by
  cases hd : b.discrete with
  | true =>
    filter_upwards [(b.discrete_law hd).1] with y ⟨k, hk⟩
    subst hk
    rcases hl hd with h | h | ⟨n, h⟩
    · subst h
      have : (⊤ : EReal) - 1 = ⊤ := by
        rw [← EReal.coe_one]; exact EReal.top_sub_coe 1
      simp [adjustLower, this]
    · subst h; simp [adjustLower]
    · subst h
      have : adjustLower true ((n : ℝ) : EReal) = (((n - 1 : ℤ) : ℝ) : EReal) := by
        simp only [adjustLower, if_true]
        push_cast; simp
      rw [this]
      rw [EReal.coe_lt_coe_iff, EReal.coe_le_coe_iff, Int.cast_lt, Int.cast_le]
      omega
  | false =>
    have h0 : ∀ᵐ (y : ℝ) ∂b.law, (y : EReal) ≠ l := by
      induction l with
      | bot => simp
      | top => simp
      | coe r =>
        have := b.atomless hd r
        rw [ae_iff]
        convert this using 2
        ext y; simp
    filter_upwards [h0] with y hy
    simp only [adjustLower]
    exact ⟨le_of_lt, fun h => lt_of_le_of_ne h (Ne.symm hy)⟩

theorem adjust_le (d : Bool) (l : EReal) : adjustLower d l ≤ l := by
  unfold adjustLower
  split
  · induction l with
    | bot => simp
    | top => simp
    | coe r => 
      rw [show (r : EReal) - 1 = ((r - 1 : ℝ) : EReal) by push_cast; rfl, EReal.coe_le_coe_iff]
      linarith
  · exact le_rfl

/-- mass between the bounds, cut at `e ≤ u` -/
theorem Base.mass_between (b : Base) {l u e : EReal} (hl : b.discrete = true → Whole l)
    (he : adjustLower b.discrete l ≤ e) (heu : e ≤ u) :
    b.law.real (between l u ∩ {y : ℝ | (y : EReal) ≤ e})
      = b.cdf e - b.cdf (adjustLower b.discrete l) := by
  rw [← b.mass_gap he]
  apply measureReal_congr
  filter_upwards [b.adjust_ae l hl] with y hy
  apply propext
  show (l ≤ (y : EReal) ∧ (y : EReal) ≤ u) ∧ (y : EReal) ≤ e ↔ _ ∧ _
  rw [hy]
  constructor
  · rintro ⟨⟨h1, _⟩, h3⟩; exact ⟨h1, h3⟩
  · rintro ⟨h1, h3⟩; exact ⟨⟨h1, h3.trans heu⟩, h3⟩

theorem Base.adj_le_upper (b : Base) {l u : EReal} (hl : b.discrete = true → Whole l)
    (hm : 0 < b.law.real (between l u)) : adjustLower b.discrete l < u := by
  by_contra hlt
  push Not at hlt
  have : b.law.real (between l u) = 0 := by
    rw [measureReal_eq_zero_iff]
    refine measure_mono_null (t := {y : ℝ | ¬ (adjustLower b.discrete l < (y : EReal) ↔ l ≤ (y : EReal))}) ?_
      (ae_iff.1 (b.adjust_ae l hl))
    rintro y ⟨h1, h2⟩
    simp only [Set.mem_ofPred_eq]
    intro h
    exact absurd (h.2 h1) (not_lt.2 (h2.trans hlt))
  linarith

theorem Base.mass_total (b : Base) {l u : EReal} (hl : b.discrete = true → Whole l)
    (hm : 0 < b.law.real (between l u)) :
    b.law.real (between l u) = b.cdf u - b.cdf (adjustLower b.discrete l) := by
  rw [← b.mass_between hl (b.adj_le_upper hl hm).le le_rfl]
  congr 1; ext y; simp only [between, Set.mem_inter_iff, Set.mem_ofPred_eq]; tauto

theorem truncLaw_real (μ : Measure ℝ) (l u : EReal) (A : Set ℝ) :
    (truncLaw μ l u).real A = μ.real (between l u ∩ A) / μ.real (between l u) := by
  rw [truncLaw, measureReal_def, ProbabilityTheory.cond_apply (meas_between l u),
    ENNReal.toReal_mul, ENNReal.toReal_inv, div_eq_inv_mul]
  rfl

end Verif.Modifier
