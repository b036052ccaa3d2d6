import Verif.Model.Slider
import Mathlib.Tactic

/-!
# C55: slider ranges contain the current value
-/

namespace Verif.Props
open Verif Verif.Slider

/-- rounding to `d` decimals moves a number by at most half a unit of the last decimal kept -/
def Rounds (round : ℝ → ℤ → ℝ) : Prop := ∀ x d, |round x d - x| ≤ 1 / 2 * (10 : ℝ) ^ (-d)

/-- rounding to the nearest multiple is such a rounding -/
example : Rounds fun x d => (round (x * (10 : ℝ) ^ d) : ℝ) * (10 : ℝ) ^ (-d) := by
  intro x d
  have hp : (0 : ℝ) < 10 ^ d := by positivity
  have h := abs_sub_round (x * (10 : ℝ) ^ d)
  have e : (round (x * (10 : ℝ) ^ d) : ℝ) * (10 : ℝ) ^ (-d) - x =
      -(x * (10 : ℝ) ^ d - round (x * (10 : ℝ) ^ d)) * (10 : ℝ) ^ (-d) := by
    rw [zpow_neg]; field_simp; ring
  rw [e, abs_mul, abs_neg, abs_of_pos (by positivity : (0 : ℝ) < 10 ^ (-d))]
  exact mul_le_mul_of_nonneg_right h (by positivity)

/-- the power of ten below a number -/
private theorem power_spec (v : ℝ) (h : v ≠ 0) :
    (10 : ℝ) ^ ⌊Real.logb 10 |v|⌋ ≤ |v| ∧ |v| < (10 : ℝ) ^ ⌊Real.logb 10 |v|⌋ * 10 := by
  have hv : 0 < |v| := abs_pos.2 h
  constructor
  · rw [← Real.rpow_intCast, ← Real.le_logb_iff_rpow_le (by norm_num) hv]
    exact Int.floor_le _
  · have h1 : (10 : ℝ) ^ ⌊Real.logb 10 |v|⌋ * 10 = (10 : ℝ) ^ ((⌊Real.logb 10 |v|⌋ : ℝ) + 1) := by
      rw [Real.rpow_add (by norm_num), Real.rpow_one, Real.rpow_intCast]
    rw [h1, ← Real.logb_lt_iff_lt_rpow (by norm_num) hv]
    exact Int.lt_floor_add_one _

/-- For a value other than zero inside the support: the range contains the value, and a finite end of the
support is the end of the range.  An infinite end is replaced by a number between 9.4 and 10.4 orders of
magnitude away from the value.  The step is between a hundredth and a tenth of the size of the value. -/
theorem slider_range_partial (round : ℝ → ℤ → ℝ) (hr : Rounds round) (value : ℝ) (lower upper : Option ℝ)
    (h0 : value ≠ 0) (hl : ∀ l, lower = some l → l ≤ value) (hu : ∀ u, upper = some u → value ≤ u)
    (mn mx step : ℝ) (h : generateRange round value lower upper = (mn, mx, step)) :
    mn ≤ value ∧ value ≤ mx ∧ 0 < step ∧
    (∀ l, lower = some l → mn = l) ∧ (∀ u, upper = some u → mx = u) ∧
    (lower = none → 0.94 * |value| ≤ value - mn ∧ value - mn ≤ 10.4 * |value|) ∧
    (upper = none → 0.94 * |value| ≤ mx - value ∧ mx - value ≤ 10.4 * |value|) ∧
    |value| / 100 < step ∧ step ≤ |value| / 10 := by
  obtain ⟨p1, p2⟩ := power_spec value h0
  simp only [generateRange, if_neg h0, Prod.mk.injEq] at h
  set o : ℝ := (10 : ℝ) ^ ⌊Real.logb 10 |value|⌋ with ho
  have opos : 0 < o := by positivity
  obtain ⟨h1, h2, h3⟩ := h
  have r1 := hr (value - (o * 10 - o / 10)) (-⌊Real.logb 10 |value|⌋)
  have r2 := hr (value + (o * 10 - o / 10)) (-⌊Real.logb 10 |value|⌋)
  rw [neg_neg, ← ho, abs_le] at r1 r2
  have a1 : lower = none → 0.94 * |value| ≤ value - mn ∧ value - mn ≤ 10.4 * |value| := by
    intro hn
    rw [hn, Option.getD_none] at h1
    rw [h1] at r1
    norm_num
    constructor <;> linarith [r1.1, r1.2]
  have a2 : upper = none → 0.94 * |value| ≤ mx - value ∧ mx - value ≤ 10.4 * |value| := by
    intro hn
    rw [hn, Option.getD_none] at h2
    rw [h2] at r2
    norm_num
    constructor <;> linarith [r2.1, r2.2]
  have hv : 0 < |value| := abs_pos.2 h0
  refine ⟨?_, ?_, by rw [← h3]; positivity, ?_, ?_, a1, a2, by rw [← h3]; linarith, by rw [← h3]; linarith⟩
  · cases lower with
    | none => have := (a1 rfl).1; norm_num at this; linarith
    | some l => rw [Option.getD_some] at h1; rw [← h1]; exact hl l rfl
  · cases upper with
    | none => have := (a2 rfl).1; norm_num at this; linarith
    | some u => rw [Option.getD_some] at h2; rw [← h2]; exact hu u rfl
  · intro l e; rw [e, Option.getD_some] at h1; exact h1.symm
  · intro u e; rw [e, Option.getD_some] at h2; exact h2.symm

/-- At zero the range is always (-10, 10): it contains the value, ... -/
theorem slider_range_zero (round : ℝ → ℤ → ℝ) (lower upper : Option ℝ) :
    generateRange round 0 lower upper = (-10, 10, 0.1) := by simp [generateRange]

/-- ... but, negation, it leaves the support of a parameter that cannot be negative -/
theorem slider_range_outside :
    ∃ mn mx step, generateRange (fun x _ => x) 0 (some 0) (some 1) = (mn, mx, step) ∧ mn < 0 ∧ 1 < mx :=
  ⟨-10, 10, 0.1, by simp [generateRange], by norm_num, by norm_num⟩

end Verif.Props
