import Verif.Lemmas.Censored
import Mathlib.MeasureTheory.Integral.Bochner.Set

namespace Verif.Modifier
open Verif MeasureTheory Verif.Spec

theorem Base.p_low (b : Base) {L : EReal} (hL : b.discrete = true → Whole L) :
    censPLow b L = b.law.real {y : ℝ | (y : EReal) < L} := by
  have h := b.adjust_ae L hL
  have e : censPLow b L = b.cdf (adjustLower b.discrete L) := by
    unfold censPLow adjustLower; cases b.discrete <;> rfl
  rw [e]
  apply measureReal_congr
  filter_upwards [h] with y hy
  apply propext
  show (y : EReal) ≤ _ ↔ (y : EReal) < L
  rw [← not_lt, hy, not_le]

theorem Base.p_up (b : Base) (U : EReal) :
    censPUp b U = b.law.real {y : ℝ | U < (y : EReal)} := by
  unfold censPUp
  rw [← b.cdf_top, ← b.mass_gap le_top]
  congr 1; ext y; simp

theorem split_univ (L U : EReal) (y : ℝ) :
    y ∈ between L U ∨ (y : EReal) < L ∨ U < (y : EReal) := by
  by_cases h : (y : EReal) < L
  · exact Or.inr (Or.inl h)
  · by_cases h' : U < (y : EReal)
    · exact Or.inr (Or.inr h')
    · exact Or.inl ⟨not_lt.1 h, not_lt.1 h'⟩

theorem Base.p_int (b : Base) {L U : EReal} (hLU : L ≤ U) (hL : b.discrete = true → Whole L) :
    censPInt b L U = b.law.real (between L U) := by
  unfold censPInt
  rw [b.p_low hL, b.p_up]
  have h : b.law.real Set.univ = 1 := by simp
  have hu : (Set.univ : Set ℝ)
      = (between L U ∪ {y : ℝ | (y : EReal) < L}) ∪ {y : ℝ | U < (y : EReal)} := by
    ext y; have := split_univ L U y
    simp only [Set.mem_univ, Set.mem_union, Set.mem_ofPred_eq, true_iff]; tauto
  rw [hu, measureReal_union _ (meas_gt U), measureReal_union _ (meas_lt L)] at h
  · linarith
  · rw [Set.disjoint_left]; rintro y ⟨h1, _⟩ h2; exact absurd h2 (not_lt.2 h1)
  · rw [Set.disjoint_left]
    rintro y (⟨_, h1⟩ | h1) h2
    · exact absurd h2 (not_lt.2 h1)
    · exact absurd (lt_of_lt_of_le h1 hLU) (not_lt.2 (le_of_lt h2))

theorem integral_trunc (μ : Measure ℝ) (L U : EReal) (f : ℝ → ℝ) :
    ∫ y, f y ∂(truncLaw μ L U) = (∫ y in between L U, f y ∂μ) / μ.real (between L U) := by
  unfold truncLaw ProbabilityTheory.cond
  rw [integral_smul_measure, smul_eq_mul, ENNReal.toReal_inv, div_eq_inv_mul]
  rfl

/-- expectation of a function of the clipped variable -/
theorem Base.integral_clip (b : Base) {L U : EReal} (hLU : L ≤ U)
    (hL : b.discrete = true → Whole L)
    (f : ℝ → ℝ) (hm : Measurable f) (hf : IntegrableOn f (between L U) b.law)
    (hpos : 0 < b.law.real (between L U)) :
    ∫ y, f y ∂(censLaw b.law L U)
      = f L.toReal * censPLow b L + (∫ y, f y ∂(truncLaw b.law L U)) * censPInt b L U
        + f U.toReal * censPUp b U := by
  unfold censLaw
  rw [integral_map (clip_meas L U).aemeasurable hm.aestronglyMeasurable]
  have d1 : Disjoint (between L U) {y : ℝ | (y : EReal) < L} := by
    rw [Set.disjoint_left]; rintro y ⟨h1, _⟩ h2; exact absurd h2 (not_lt.2 h1)
  have d2 : Disjoint (between L U ∪ {y : ℝ | (y : EReal) < L}) {y : ℝ | U < (y : EReal)} := by
    rw [Set.disjoint_left]
    rintro y (⟨_, h1⟩ | h1) h2
    · exact absurd h2 (not_lt.2 h1)
    · exact absurd (lt_of_lt_of_le h1 hLU) (not_lt.2 (le_of_lt h2))
  have hu : (Set.univ : Set ℝ)
      = (between L U ∪ {y : ℝ | (y : EReal) < L}) ∪ {y : ℝ | U < (y : EReal)} := by
    ext y; have := split_univ L U y
    simp only [Set.mem_univ, Set.mem_union, Set.mem_ofPred_eq, true_iff]; tauto
  have c1 : Set.EqOn (fun y => f (clipFn L U y)) f (between L U) := by
    rintro y ⟨h1, h2⟩; simp only [clip_mid h1 h2]
  have c2 : Set.EqOn (fun y => f (clipFn L U y)) (fun _ => f L.toReal) {y : ℝ | (y : EReal) < L} := by
    intro y h1; simp only [clip_low hLU (le_of_lt h1)]
  have c3 : Set.EqOn (fun y => f (clipFn L U y)) (fun _ => f U.toReal) {y : ℝ | U < (y : EReal)} := by
    intro y h1; simp only [clip_up hLU (le_of_lt h1)]
  have i1 : IntegrableOn (fun y => f (clipFn L U y)) (between L U) b.law :=
    hf.congr_fun c1.symm (meas_between L U)
  have i2 : IntegrableOn (fun y => f (clipFn L U y)) {y : ℝ | (y : EReal) < L} b.law :=
    (integrableOn_const (measure_ne_top _ _)).congr_fun c2.symm (meas_lt L)
  have i3 : IntegrableOn (fun y => f (clipFn L U y)) {y : ℝ | U < (y : EReal)} b.law :=
    (integrableOn_const (measure_ne_top _ _)).congr_fun c3.symm (meas_gt U)
  rw [← setIntegral_univ, hu, setIntegral_union d2 (meas_gt U) (i1.union i2) i3,
    setIntegral_union d1 (meas_lt L) i1 i2, setIntegral_congr_fun (meas_between L U) c1,
    setIntegral_congr_fun (meas_lt L) c2, setIntegral_congr_fun (meas_gt U) c3,
    setIntegral_const, setIntegral_const, integral_trunc, b.p_int hLU hL, b.p_low hL, b.p_up,
    div_mul_cancel₀ _ hpos.ne']
  simp only [smul_eq_mul]
  ring

theorem censPLow_bot (b : Base) : censPLow b ⊥ = 0 := by
  unfold censPLow; cases b.discrete <;> simp [Base.cdf_bot]
theorem censPUp_top (b : Base) : censPUp b ⊤ = 0 := by
  unfold censPUp; simp [Base.cdf_top]

theorem xprody_low (b : Base) {L : EReal} (hL : L ≠ ⊤) (f : ℝ → ℝ) (g : EReal)
    (hg : L ≠ ⊥ → g = (f L.toReal : EReal)) : xprody g (censPLow b L) = f L.toReal * censPLow b L := by
  by_cases h : L = ⊥
  · subst h; rw [censPLow_bot]; simp [xprody]
  · rw [hg h]; simp [xprody]
theorem xprody_up (b : Base) {U : EReal} (hU : U ≠ ⊥) (f : ℝ → ℝ) (g : EReal)
    (hg : U ≠ ⊤ → g = (f U.toReal : EReal)) : xprody g (censPUp b U) = f U.toReal * censPUp b U := by
  by_cases h : U = ⊤
  · subst h; rw [censPUp_top]; simp [xprody]
  · rw [hg h]; simp [xprody]

theorem xprody_coe (r y : ℝ) : xprody (r : EReal) y = r * y := by simp [xprody]
theorem powDiff_coe (r m : ℝ) (k : ℕ) : powDiff (r : EReal) m k = (((r - m) ^ k : ℝ) : EReal) := by
  simp [powDiff]
theorem powStd_coe (r m s : ℝ) (k : ℕ) :
    powStd (r : EReal) m s k = ((((r - m) / s) ^ k : ℝ) : EReal) := by
  simp [powStd]

/-! ## sums for the dice examples -/

theorem dice_integrable (n : ℕ) (f : ℝ → ℝ) (S : Set ℝ) : IntegrableOn f S (diceLaw n) := by
  apply Integrable.integrableOn
  unfold diceLaw
  rw [integrable_finset_sum_measure]
  intro k _
  exact (integrable_dirac (by simp)).smul_measure (by simp)

theorem dice_integral (n : ℕ) (f : ℝ → ℝ) :
    ∫ y, f y ∂(diceLaw n) = ∑ k ∈ Finset.range (n + 1), f k / ((n : ℝ) + 1) := by
  unfold diceLaw
  rw [integral_finset_sum_measure]
  · apply Finset.sum_congr rfl
    intro k _
    rw [integral_smul_measure, integral_dirac, ENNReal.toReal_ofReal (by positivity), smul_eq_mul]
    ring
  · intro k _
    exact (integrable_dirac (by simp)).smul_measure (by simp)

theorem dice_setIntegral (n : ℕ) (f : ℝ → ℝ) (S : Set ℝ) [DecidablePred (· ∈ S)]
    (hS : MeasurableSet S) :
    ∫ y in S, f y ∂(diceLaw n)
      = ∑ k ∈ Finset.range (n + 1), if (k : ℝ) ∈ S then f k / ((n : ℝ) + 1) else 0 := by
  rw [← integral_indicator hS, dice_integral]
  apply Finset.sum_congr rfl
  intro k _
  by_cases h : (k : ℝ) ∈ S <;> simp [h]

end Verif.Modifier
