import Verif.Lemmas.Interval
import Verif.Props.Mixture
import Mathlib.Analysis.Real.Pi.Bounds

set_option linter.unusedSimpArgs false

/-!
# C21 equal-tailed intervals, C56 circular intervals
-/

namespace Verif.Props
open Verif MeasureTheory Verif.Spec Verif.Modifier Verif.Interval

/-- C21: continuous distributions, no formatting. -/
theorem eti_continuous (b : Base) (hc : b.discrete = false) (ci m : ℝ) (h0 : 0 < m) (h1 : m < 1) :
    ∃ lo hi : ℝ, eti b true true ci none (some m) = .ok ((lo : EReal), (hi : EReal)) ∧
      EqualTailed b.law m lo hi := by
  obtain ⟨lo, hl⟩ := ppf_real b (q := (1 - m) / 2) (by linarith) (by linarith)
  obtain ⟨hi, hu⟩ := ppf_real b (q := 1 - (1 - m) / 2) (by linarith) (by linarith)
  refine ⟨lo, hi, ?_, equalTailed_of b h0 h1 hl hu⟩
  simp [eti, hc, hl, hu]

/-- C21: discrete distributions; the ends are integers, whatever the format. -/
theorem eti_discrete (b : Base) (hd : b.discrete = true) (ci m : ℝ) (fmt : Option (EReal → EReal))
    (h0 : 0 < m) (h1 : m < 1) :
    ∃ lo hi : ℤ, eti b true true ci fmt (some m) = .ok (((lo : ℝ) : EReal), ((hi : ℝ) : EReal)) ∧
      EqualTailed b.law m lo hi := by
  obtain ⟨lo, hl⟩ := ppf_real b (q := (1 - m) / 2) (by linarith) (by linarith)
  obtain ⟨hi, hu⟩ := ppf_real b (q := 1 - (1 - m) / 2) (by linarith) (by linarith)
  obtain ⟨l, rfl⟩ := ppf_integer b hd (by linarith) (by linarith) hl
  obtain ⟨u, rfl⟩ := ppf_integer b hd (by linarith) (by linarith) hu
  refine ⟨l, u, ?_, equalTailed_of b h0 h1 hl hu⟩
  simp [eti, hd, hl, hu, pyInt_int]

/-- an equal-tailed interval carries at least the requested mass -/
theorem equalTailed_covers (μ : Measure ℝ) [IsProbabilityMeasure μ] {m lo hi : ℝ}
    (h : EqualTailed μ m lo hi) : m ≤ μ.real (Set.Icc lo hi) := by
  have h1 : Set.Icc lo hi = Set.Iic hi \ Set.Iio lo := by ext y; simp [and_comm]
  rw [h1, measureReal_sdiff
    (Set.Iio_subset_Iic_self.trans (Set.Iic_subset_Iic.mpr h.ordered)) measurableSet_Iio]
  have h2 := h.above
  rw [(compl_tail μ hi).1] at h2
  have h3 := h.below
  linarith

/-- C21: the interval carries at least the requested mass. -/
theorem eti_covers (b : Base) (ci m : ℝ) (h0 : 0 < m) (h1 : m < 1) :
    ∃ lo hi : ℝ, eti b true true ci none (some m) = .ok ((lo : EReal), (hi : EReal)) ∧
      m ≤ b.law.real (Set.Icc lo hi) := by
  cases hd : b.discrete with
  | false =>
    obtain ⟨lo, hi, h, h'⟩ := eti_continuous b hd ci m h0 h1
    exact ⟨lo, hi, h, equalTailed_covers _ h'⟩
  | true =>
    obtain ⟨lo, hi, h, h'⟩ := eti_discrete b hd ci m none h0 h1
    exact ⟨lo, hi, h, equalTailed_covers _ h'⟩

/-- C21: for a continuous distribution both tails carry exactly `(1 - mass) / 2`. -/
theorem eti_exact (b : Base) (hc : b.discrete = false) (ci m : ℝ) (h0 : 0 < m) (h1 : m < 1) :
    ∃ lo hi : ℝ, eti b true true ci none (some m) = .ok ((lo : EReal), (hi : EReal)) ∧
      b.law.real (Set.Iio lo) = (1 - m) / 2 ∧ b.law.real (Set.Ioi hi) = (1 - m) / 2 ∧
      b.law.real (Set.Icc lo hi) = m := by
  obtain ⟨lo, hi, h, h'⟩ := eti_continuous b hc ci m h0 h1
  have hz : ∀ x : ℝ, b.law.real {x} = 0 := by
    intro x
    have := (b.continuous_law hc).2
    have hac : b.law ≪ volume := by
      rw [this]; exact withDensity_absolutelyContinuous _ _
    simp [Measure.real, hac (Real.volume_singleton (a := x))]
  have e1 : b.law.real (Set.Iic lo) = b.law.real (Set.Iio lo) := by
    rw [← Set.Iio_union_right, measureReal_union (by simp) (measurableSet_singleton _), hz]; simp
  have e2 : b.law.real (Set.Ici hi) = b.law.real (Set.Ioi hi) := by
    rw [← Set.Ioi_union_left, measureReal_union (by simp) (measurableSet_singleton _), hz]; simp
  have a1 : b.law.real (Set.Iio lo) = (1 - m) / 2 := le_antisymm h'.below (e1 ▸ h'.left_tight)
  have a2 : b.law.real (Set.Ioi hi) = (1 - m) / 2 := le_antisymm h'.above (e2 ▸ h'.right_tight)
  refine ⟨lo, hi, h, a1, a2, ?_⟩
  have h1 : Set.Icc lo hi = Set.Iic hi \ Set.Iio lo := by ext y; simp [and_comm]
  rw [h1, measureReal_sdiff
    (Set.Iio_subset_Iic_self.trans (Set.Iic_subset_Iic.mpr h'.ordered)) measurableSet_Iio, a1]
  rw [(compl_tail b.law hi).1] at a2
  linarith

/-- C21: a larger mass never gives a narrower interval. -/
theorem eti_nested (b : Base) (ci m m' : ℝ) (h0 : 0 < m) (hm : m ≤ m') (h1 : m' < 1) :
    ∃ lo hi lo' hi' : ℝ, eti b true true ci none (some m) = .ok ((lo : EReal), (hi : EReal)) ∧
      eti b true true ci none (some m') = .ok ((lo' : EReal), (hi' : EReal)) ∧
      lo' ≤ lo ∧ hi ≤ hi' := by
  obtain ⟨lo, hl⟩ := ppf_real b (q := (1 - m) / 2) (by linarith) (by linarith)
  obtain ⟨hi, hu⟩ := ppf_real b (q := 1 - (1 - m) / 2) (by linarith) (by linarith)
  obtain ⟨lo', hl'⟩ := ppf_real b (q := (1 - m') / 2) (by linarith) (by linarith)
  obtain ⟨hi', hu'⟩ := ppf_real b (q := 1 - (1 - m') / 2) (by linarith) (by linarith)
  have a1 := ppf_mono b (p := (1 - m') / 2) (q := (1 - m) / 2) (by linarith) (by linarith)
    (by linarith)
  have a2 := ppf_mono b (p := 1 - (1 - m) / 2) (q := 1 - (1 - m') / 2) (by linarith) (by linarith)
    (by linarith)
  rw [hl, hl'] at a1
  rw [hu, hu'] at a2
  refine ⟨lo, hi, lo', hi', ?_, ?_, by exact_mod_cast a1, by exact_mod_cast a2⟩
  · cases hd : b.discrete with
    | false => simp [eti, hd, hl, hu]
    | true =>
      obtain ⟨l, rfl⟩ := ppf_integer b hd (by linarith) (by linarith) hl
      obtain ⟨u, rfl⟩ := ppf_integer b hd (by linarith) (by linarith) hu
      simp [eti, hd, hl, hu, pyInt_int]
  · cases hd : b.discrete with
    | false => simp [eti, hd, hl', hu']
    | true =>
      obtain ⟨l, rfl⟩ := ppf_integer b hd (by linarith) (by linarith) hl'
      obtain ⟨u, rfl⟩ := ppf_integer b hd (by linarith) (by linarith) hu'
      simp [eti, hd, hl', hu', pyInt_int]

/-- C21: rounding for display keeps the order and moves each end by at most the rounding error. -/
theorem eti_formatted (b : Base) (hc : b.discrete = false) (ci m δ : ℝ) (h0 : 0 < m) (h1 : m < 1)
    (f : ℝ → ℝ) (hf : Monotone f) (hδ : ∀ x, |f x - x| ≤ δ) :
    ∃ lo hi lo' hi' : ℝ, EqualTailed b.law m lo hi ∧
      eti b true true ci (some fun x => ((f x.toReal : ℝ) : EReal)) (some m) =
        .ok ((lo' : EReal), (hi' : EReal)) ∧
      lo' ≤ hi' ∧ |lo' - lo| ≤ δ ∧ |hi' - hi| ≤ δ := by
  obtain ⟨lo, hl⟩ := ppf_real b (q := (1 - m) / 2) (by linarith) (by linarith)
  obtain ⟨hi, hu⟩ := ppf_real b (q := 1 - (1 - m) / 2) (by linarith) (by linarith)
  have he := equalTailed_of b h0 h1 hl hu
  exact ⟨lo, hi, f lo, f hi, he, by simp [eti, hc, hl, hu], hf he.ordered, hδ lo, hδ hi⟩

/-- C21: without an explicit mass the configured one is used; an unfrozen distribution or
non-scalar parameters raise ValueError. -/
theorem eti_default_and_errors (b : Base) (ci : ℝ) (fmt : Option (EReal → EReal)) (m : Option ℝ)
    (scalar : Bool) :
    eti b true true ci fmt none = eti b true true ci fmt (some ci) ∧
      eti b false scalar ci fmt m = .error .valueError ∧
      eti b true false ci fmt m = .error .valueError := by
  refine ⟨rfl, ?_, ?_⟩ <;> simp [eti, throw, throwThe, MonadExceptOf.throw]

/-- C21: `mass = 1` asks for the quantiles at 0 and 1, the ends of the support (for discrete
distributions one below the lower end, by the convention of `ppf` at 0).  On a bounded support the
interval then carries everything. -/
theorem eti_whole (b : Base) (ci : ℝ) (lo hi : ℝ)
    (hlo : b.lo = lo) (h0 : b.ppf 0 = ((if b.discrete then lo - 1 else lo : ℝ) : EReal))
    (h1 : b.ppf 1 = hi)
    (hz : b.discrete = true → (∃ k : ℤ, lo = k) ∧ ∃ k : ℤ, hi = k) :
    ∃ a c : ℝ, eti b true true ci none (some 1) = .ok ((a : EReal), (c : EReal)) ∧
      b.law.real (Set.Icc a c) = 1 := by
  have hfull : ∀ a : ℝ, a ≤ lo → b.law.real (Set.Icc a hi) = 1 := by
    intro a ha
    have hhi : 1 ≤ b.law.real (Set.Iic hi) := (b.ppf_inverse 1 one_pos le_rfl hi).mp h1.le
    have : b.law.real (Set.Icc a hi) = b.law.real (Set.Iic hi) := by
      apply measureReal_congr
      filter_upwards [b.in_support] with y hy
      apply propext
      change a ≤ y ∧ y ≤ hi ↔ y ≤ hi
      have := hy.1
      rw [hlo] at this
      have hly : lo ≤ y := by exact_mod_cast this
      exact ⟨And.right, fun h => ⟨by linarith, h⟩⟩
    rw [this]
    exact le_antisymm measureReal_le_one hhi
  cases hd : b.discrete with
  | false =>
    rw [hd] at h0
    simp only [Bool.false_eq_true, if_false] at h0
    exact ⟨lo, hi, by simp [eti, hd, h0, h1], hfull lo le_rfl⟩
  | true =>
    rw [hd] at h0
    simp only [if_true] at h0
    obtain ⟨⟨l, rfl⟩, ⟨u, rfl⟩⟩ := hz hd
    have e : ((l : ℝ) - 1) = ((l - 1 : ℤ) : ℝ) := by push_cast; ring
    rw [e] at h0
    refine ⟨((l - 1 : ℤ) : ℝ), u, ?_, hfull _ ?_⟩
    · simp only [eti, hd, Option.getD_some, sub_self, zero_div, sub_zero, h0, h1, pyInt_int,
        Except.ok_bind']
      rfl
    · push_cast; linarith

/-- C21: with an unbounded discrete distribution `mass = 1` raises OverflowError, because an infinite
quantile has no integer part. -/
theorem eti_whole_unbounded (b : Base) (hd : b.discrete = true) (ci : ℝ)
    (fmt : Option (EReal → EReal)) (l : ℝ) (h0 : b.ppf 0 = l) (h1 : b.ppf 1 = ⊤) :
    eti b true true ci fmt (some 1) = .error .overflow := by
  simp [eti, hd, h0, h1, pyInt]

/-- C21: survival function and its inverse: `isf p ≤ x` exactly when at most `p` of the
probability lies above `x`. -/
theorem isf_inverse (b : Base) (p x : ℝ) (h0 : 0 ≤ p) (h1 : p < 1) :
    isf b p ≤ (x : EReal) ↔ b.law.real (Set.Ioi x) ≤ p := by
  unfold isf
  rw [b.ppf_inverse (1 - p) (by linarith) (by linarith) x, (compl_tail b.law x).1]
  constructor <;> intro h <;> linarith

theorem sf_tail (b : Base) (x : ℝ) : sf b x = b.law.real (Set.Ioi x) := by
  unfold sf Base.cdf
  rw [(compl_tail b.law x).1]
  congr 2
  ext y
  simp

/-! ### C56 -/

/-- C56: both ends of a VonMises interval are in (-π, π] and are the ends of the interval centred at
0 rotated by `mu`; `mu` is unchanged.  Missing from the English claim: this needs the inner
computation to succeed, see `vonmises_failure`. -/
theorem vonmises_interval_partial (super : ℝ → Except Err (ℝ × ℝ)) (mu lo hi : ℝ)
    (h : super 0 = .ok (lo, hi)) :
    ∃ a b : ℝ, vonMisesInterval super none mu = (.ok (a, b), mu) ∧
      SameAngle (lo + mu) a ∧ SameAngle (hi + mu) b := by
  refine ⟨_, _, by simp [vonMisesInterval, h, warpInterval], wrapAngle_same _,
    wrapAngle_same _⟩

/-- C56: with a display format the ends are the rounded rotated ends. -/
theorem vonmises_formatted (super : ℝ → Except Err (ℝ × ℝ)) (mu lo hi δ : ℝ) (f : ℝ → ℝ)
    (hf : ∀ x, |f x - x| ≤ δ) (h : super 0 = .ok (lo, hi)) :
    ∃ a b a' b' : ℝ, vonMisesInterval super (some f) mu = (.ok (a', b'), mu) ∧
      SameAngle (lo + mu) a ∧ SameAngle (hi + mu) b ∧ |a' - a| ≤ δ ∧ |b' - b| ≤ δ := by
  exact ⟨wrapAngle (lo + mu), wrapAngle (hi + mu), f (wrapAngle (lo + mu)), f (wrapAngle (hi + mu)),
    by simp [vonMisesInterval, h, warpInterval], wrapAngle_same _, wrapAngle_same _, hf _, hf _⟩

/-- C56 fails on errors: when the inner computation raises, the distribution is left with `mu = 0`. -/
theorem vonmises_failure (super : ℝ → Except Err (ℝ × ℝ)) (fmt : Option (ℝ → ℝ)) (mu : ℝ) (e : Err)
    (h : super 0 = .error e) (hmu : mu ≠ 0) :
    (vonMisesInterval super fmt mu).1 = .error e ∧ (vonMisesInterval super fmt mu).2 ≠ mu := by
  simp [vonMisesInterval, h, hmu.symm]

example : (vonMisesInterval (fun _ => .error .valueError) none 1).2 = 0 := rfl

example : ∃ a b : ℝ, vonMisesInterval (fun _ => .ok (-1, 1)) none 3 = (.ok (a, b), 3) ∧
    SameAngle (-1 + 3) a ∧ SameAngle (1 + 3) b :=
  vonmises_interval_partial _ 3 (-1) 1 rfl

/-- the interval of the example wraps around: the upper end is below the lower end -/
example : ∃ a b : ℝ, SameAngle 2 a ∧ SameAngle 4 b ∧ b < a := by
  refine ⟨2, 4 - 2 * Real.pi, ⟨⟨?_, ?_⟩, 0, by simp⟩, ⟨⟨?_, ?_⟩, -1, by push_cast; ring⟩, ?_⟩ <;>
  nlinarith [Real.pi_gt_three, Real.pi_lt_four]

example : ∃ lo hi : ℤ, eti (dice 9) true true 0 none (some (1 / 2)) =
    .ok (((lo : ℝ) : EReal), ((hi : ℝ) : EReal)) ∧ EqualTailed (dice 9).law (1 / 2) lo hi :=
  eti_discrete (dice 9) rfl 0 (1 / 2) none (by norm_num) (by norm_num)

end Verif.Props
