import Verif.Model.Warnings
import Verif.Props.Select
import Verif.Props.GridMoments
import Mathlib.Tactic

set_option linter.unusedSimpArgs false

/-!
# C67: no warning means the request is met
-/

namespace Verif.Props
open Verif Verif.Modifier Verif.Warnings Verif.Optim MeasureTheory

private theorem relErr_mass (b : Base) (lower upper mass : ℝ) (hle : lower ≤ upper)
    (hl : b.discrete = true → ∃ n : ℤ, lower = n) :
    (relativeError b lower upper mass).2 = b.law.real (Set.Icc lower upper) := by
  have h := constraint_is_mass b lower upper mass hle hl
  unfold probBound at h
  dsimp only at h
  unfold relativeError
  dsimp only
  linarith

private theorem relErr_one (b : Base) (lower upper mass : ℝ) : (relativeError b lower upper mass).1 =
    |((relativeError b lower upper mass).2 - mass) / mass * 100| := rfl

private theorem rel_iff (c m t : ℝ) (hm : 0 < m) : |(c - m) / m * 100| > t ↔ t / 100 * m < |c - m| := by
  rw [abs_mul, abs_div, abs_of_pos hm, abs_of_pos (by norm_num : (0 : ℝ) < 100), gt_iff_lt, div_mul_eq_mul_div,
    lt_div_iff₀ hm]
  constructor <;> intro h <;> nlinarith

/-- C67: maxent is silent about the mass exactly if the probability of the closed interval is within one part in ten
thousand of the requested mass, and what it prints otherwise is that probability (integer lower bound if the distribution
is discrete). -/
theorem maxent_silent_partial (b : Base) (lower upper mass : ℝ) (hle : lower ≤ upper) (hm : 0 < mass)
    (hl : b.discrete = true → ∃ n : ℤ, lower = n) :
    (maxentWarns b lower upper mass = false ↔ |b.law.real (Set.Icc lower upper) - mass| ≤ mass / 10000) ∧
      (relativeError b lower upper mass).2 = b.law.real (Set.Icc lower upper) := by
  have h := relErr_mass b lower upper mass hle hl
  refine ⟨?_, h⟩
  unfold maxentWarns
  rw [decide_eq_false_iff_not, relErr_one, h, rel_iff _ _ _ hm, not_lt]
  constructor <;> intro h <;> norm_num at h ⊢ <;> linarith

private theorem point_cdf (k : ℤ) (x : ℝ) : (pointBase k).cdf x = if (k : ℝ) ≤ x then 1 else 0 := by
  show (Measure.dirac (k : ℝ)).real {y : ℝ | (y : EReal) ≤ x} = _
  rw [measureReal_def, Measure.dirac_apply' _ (by measurability)]
  by_cases h : (k : ℝ) ≤ x <;> simp [h]

/-- C67, what fails: for a discrete distribution and a lower bound that is not an integer, maxent counts an integer below
the interval, and can be silent although the interval has no mass at all. -/
theorem maxent_silent_wrong : ∃ (b : Base) (lower upper mass : ℝ), b.discrete = true ∧ lower < upper ∧ 0 < mass ∧ mass ≤ 1 ∧
    maxentWarns b lower upper mass = false ∧ b.law.real (Set.Icc lower upper) = 0 := by
  refine ⟨pointBase 0, 1 / 2, 2, 1, rfl, by norm_num, by norm_num, by norm_num, ?_, ?_⟩
  · unfold maxentWarns relativeError
    have hd : (pointBase 0).discrete = true := rfl
    simp only [hd, if_true]
    have h1 := point_cdf 0 2
    have h2 := point_cdf 0 (1 / 2 - 1)
    norm_num at h1 h2
    norm_num [h1, h2]
  · show (Measure.dirac ((0 : ℤ) : ℝ)).real (Set.Icc (1 / 2) 2) = 0
    rw [measureReal_def, Measure.dirac_apply' _ measurableSet_Icc]
    norm_num

/-- C67: such bounds are announced: a discrete distribution and bounds given as `int` or `float` are warned about exactly
if one of them is not an integer. -/
theorem bounds_warn_iff_partial (b : Base) (lower upper : Num) (hl : ∀ x, lower ≠ .other x) (hu : ∀ x, upper ≠ .other x) :
    boundsWarn b lower upper = true ↔
      b.discrete = true ∧ ¬ ((∃ n : ℤ, lower.val = n) ∧ ∃ n : ℤ, upper.val = n) := by
  have key : ∀ v : Num, (∀ x, v ≠ .other x) → (isIntegerNum v = true ↔ ∃ n : ℤ, v.val = n) := by
    intro v hv
    cases v with
    | int n => simp [isIntegerNum, Num.val]
    | float x => simp [isIntegerNum, Num.val]
    | other x => exact absurd rfl (hv x)
  unfold boundsWarn
  rw [Bool.and_eq_true, Bool.not_eq_true', Bool.and_eq_false_iff, ← key lower hl, ← key upper hu]
  constructor
  · rintro ⟨h1, h2⟩
    refine ⟨h1, ?_⟩
    rintro ⟨h3, h4⟩
    rcases h2 with h2 | h2 <;> simp_all
  · rintro ⟨h1, h2⟩
    refine ⟨h1, ?_⟩
    by_contra h3
    push Not at h3
    exact h2 ⟨by simpa using h3.1, by simpa using h3.2⟩

/-- C67, what fails: integers of another type (`np.int64`) are reported not to be integers. -/
theorem bounds_warn_wrong (b : Base) (h : b.discrete = true) (n m : ℤ) :
    boundsWarn b (.other n) (.other m) = true := by
  simp [boundsWarn, h, isIntegerNum]

/-! ### quartile -/

/-- C67: a continuous distribution that has the requested quartiles is not warned about. -/
theorem quartile_exact_silent (b : Base) (hc : b.discrete = false) (q1 q2 q3 : ℝ) (h1 : b.cdf q1 = 0.25)
    (h3 : b.cdf q3 = 0.75) : quartileWarning b q1 q2 q3 = none := by
  unfold quartileWarning
  rw [if_neg]
  unfold relativeError
  simp only [hc, Bool.false_eq_true, if_false, h1, h3]
  norm_num

/-- C67: the warning is about the mass between the outer quartiles only. -/
theorem quartile_silent_iff (b : Base) (hc : b.discrete = false) (q1 q2 q3 : ℝ) :
    quartileWarning b q1 q2 q3 = none ↔ |b.cdf q3 - b.cdf q1 - 1 / 2| ≤ 1 / 20000 := by
  unfold quartileWarning
  have : (relativeError b q1 q3 0.5).1 > 0.01 ↔ ¬ |b.cdf q3 - b.cdf q1 - 1 / 2| ≤ 1 / 20000 := by
    unfold relativeError
    simp only [hc, Bool.false_eq_true, if_false]
    rw [rel_iff _ _ _ (by norm_num), not_le]
    norm_num
  by_cases h : |b.cdf q3 - b.cdf q1 - 1 / 2| ≤ 1 / 20000
  · rw [if_neg (by rw [this]; exact fun hn => hn h)]; exact iff_of_true rfl h
  · rw [if_pos (by rw [this]; exact h)]; exact iff_of_false (by simp) h

private theorem unif_cdf (x : ℝ) (h0 : 0 ≤ x) (h1 : x ≤ 1) : (unif 0 1 one_pos).cdf x = x := by
  have : {y : ℝ | (y : EReal) ≤ (x : EReal)} = Set.Iic x := by ext y; simp
  unfold Base.cdf
  rw [this, unif_real 0 1 one_pos _ measurableSet_Iic,
    show Set.Iic x ∩ Set.Icc 0 1 = Set.Icc 0 x by
      ext y
      simp only [Set.mem_inter_iff, Set.mem_Iic, Set.mem_Icc]
      exact ⟨fun h => ⟨h.2.1, h.1⟩, fun h => ⟨h.2, h.1, h.2.trans h1⟩⟩]
  rw [Real.volume_real_Icc_of_le h0]; simp

/-- C67, what fails: quartile is silent about a distribution whose three quartiles are all wrong. -/
theorem quartile_silent_wrong : ∃ (b : Base) (q1 q2 q3 : ℝ), q1 < q2 ∧ q2 < q3 ∧ quartileWarning b q1 q2 q3 = none ∧
    b.cdf q1 = 0.1 ∧ b.cdf q2 = 0.2 ∧ b.cdf q3 = 0.6 := by
  have h1 := unif_cdf 0.1 (by norm_num) (by norm_num)
  have h2 := unif_cdf 0.2 (by norm_num) (by norm_num)
  have h3 := unif_cdf 0.6 (by norm_num) (by norm_num)
  refine ⟨unif 0 1 one_pos, 0.1, 0.2, 0.6, by norm_num, by norm_num, ?_, h1, h2, h3⟩
  rw [quartile_silent_iff _ rfl, h1, h3]
  norm_num

/-- C67, what fails: a (discrete) distribution that has the requested quartiles exactly is warned about as soon as the first
quartile has noticeable probability. -/
theorem quartile_discrete_warns (b : Base) (n : ℤ) (q2 q3 : ℝ) (hle : (n : ℝ) ≤ q3)
    (h1 : b.cdf (n : ℝ) = 0.25) (h3 : b.cdf q3 = 0.75) (hp : 1 / 20000 < b.law.real {(n : ℝ)}) :
    (quartileWarning b n q2 q3).isSome = true := by
  have hm := relErr_mass b n q3 0.5 hle (fun _ => ⟨n, rfl⟩)
  have hsplit : b.law.real (Set.Icc (n : ℝ) q3) = b.law.real {(n : ℝ)} + b.law.real (Set.Ioc (n : ℝ) q3) := by
    rw [← measureReal_union (by simp) measurableSet_Ioc]
    congr 1
    rw [Set.singleton_union, Set.Ioc_insert_left hle]
  have hIoc : b.law.real (Set.Ioc (n : ℝ) q3) = 0.5 := by
    have e : ∀ x : ℝ, b.cdf x = b.law.real (Set.Iic x) := by
      intro x; unfold Base.cdf; congr 1; ext y; simp
    have : b.law.real (Set.Iic q3) = b.law.real (Set.Iic (n : ℝ)) + b.law.real (Set.Ioc (n : ℝ) q3) := by
      rw [← measureReal_union (by
        rw [Set.disjoint_left]; intro x hx hy; exact absurd hy.1 (not_lt.2 hx)) measurableSet_Ioc]
      rw [Set.Iic_union_Ioc_eq_Iic hle]
    rw [← e, ← e, h1, h3] at this
    norm_num at this ⊢
    linarith
  unfold quartileWarning
  rw [if_pos, Option.isSome_some]
  rw [relErr_one, hm, rel_iff _ _ _ (by norm_num), hsplit, hIoc, abs_of_pos (by linarith)]
  norm_num
  linarith

/-- C67: when `quartile` warns, it prints the probabilities of being at most each of the three
requested values. -/
theorem quartile_warning_masses (b : Base) (q1 q2 q3 : ℝ) (l : List ℝ)
    (h : quartileWarning b q1 q2 q3 = some l) :
    l = [(b.law (Set.Iic q1)).toReal, (b.law (Set.Iic q2)).toReal, (b.law (Set.Iic q3)).toReal] := by
  unfold quartileWarning at h
  split_ifs at h
  cases h
  have e : ∀ q : ℝ, b.cdf q = (b.law (Set.Iic q)).toReal := by
    intro q
    unfold Base.cdf
    rw [MeasureTheory.measureReal_def]
    congr 2
    ext y
    simp
  simp [e]

private theorem dice3_cdf (k : ℕ) (hk : k ≤ 3) : (dice 3).cdf ((k : ℕ) : ℝ) = ((k : ℝ) + 1) / 4 := by
  classical
  show (diceLaw 3).real {y : ℝ | (y : EReal) ≤ ((k : ℕ) : ℝ)} = _
  rw [diceLaw_real]
  interval_cases k <;> norm_num [Finset.sum_range_succ]

/-- the hypotheses of `quartile_discrete_warns` are met by the uniform distribution on 0, 1, 2, 3 and quartiles 0, 1, 2 -/
example : (quartileWarning (dice 3) ((0 : ℤ) : ℝ) 1 2).isSome = true := by
  classical
  have h0 := dice3_cdf 0 (by norm_num)
  have h2 := dice3_cdf 2 (by norm_num)
  norm_num at h0 h2
  apply quartile_discrete_warns
  · norm_num
  · simp only [Int.cast_zero]; rw [show (((0 : ℝ)) : EReal) = 0 from rfl, h0]; norm_num
  · have : (dice 3).cdf ((2 : ℝ) : EReal) = 3 / 4 := h2
    refine Eq.trans this ?_; norm_num
  · show _ < (diceLaw 3).real _
    rw [diceLaw_real]
    norm_num [Finset.sum_range_succ]

/-! ### match_quantiles -/

/-- C67: probabilities are accepted exactly if all are strictly between 0 and 1. -/
theorem quantiles_accepted (qs : List ℝ) :
    (checkQuantiles (some qs) = .ok qs ↔ ∀ q ∈ qs, 0 < q ∧ q < 1) ∧
    (checkQuantiles (some qs) ≠ .ok qs → checkQuantiles (some qs) = .error .valueError) := by
  unfold checkQuantiles
  dsimp only
  by_cases h : (qs.any fun q => decide (q ≤ 0) || decide (1 ≤ q)) = true
  · rw [if_pos h]
    simp only [reduceCtorEq, false_iff, ne_eq, not_false_eq_true, forall_const, and_true]
    simp only [List.any_eq_true, Bool.or_eq_true, decide_eq_true_eq] at h
    obtain ⟨q, hq, h⟩ := h
    intro hall
    have := hall q hq
    rcases h with h | h <;> linarith
  · rw [if_neg h]
    simp only [true_iff, ne_eq, not_true_eq_false, false_imp_iff, and_true]
    simp only [List.any_eq_true, Bool.or_eq_true, decide_eq_true_eq, not_exists, not_and, not_or, not_le] at h
    exact h

private theorem sorted_le (data : List ℝ) (i j : ℕ) (hij : i ≤ j) (hj : j < (data.insertionSort (· ≤ ·)).length) :
    (data.insertionSort (· ≤ ·))[i]'(by omega) ≤ (data.insertionSort (· ≤ ·))[j] := by
  rcases hij.eq_or_lt with rfl | h
  · exact le_rfl
  · exact List.pairwise_iff_getElem.1 (List.pairwise_insertionSort (· ≤ ·) data) i j (by omega) hj h

/-- position, neighbours and value of a sample quantile -/
private theorem quantile_value (data : List ℝ) (hd : data ≠ []) (q : ℝ) (h0 : 0 ≤ q) (h1 : q < 1) :
    ∃ (j : ℕ) (hj : j < (data.insertionSort (· ≤ ·)).length) (v t : ℝ), npQuantile data q = some v ∧
      (j : ℝ) ≤ ((data.length : ℝ) - 1) * q ∧ ((data.length : ℝ) - 1) * q < j + 1 ∧ t = ((data.length : ℝ) - 1) * q - j ∧
      (data.insertionSort (· ≤ ·))[j] ≤ v ∧
      ((h : j + 1 < (data.insertionSort (· ≤ ·)).length) →
        v = (data.insertionSort (· ≤ ·))[j] + t * ((data.insertionSort (· ≤ ·))[j + 1] - (data.insertionSort (· ≤ ·))[j]) ∧
        v ≤ (data.insertionSort (· ≤ ·))[j + 1]) ∧
      (¬ j + 1 < (data.insertionSort (· ≤ ·)).length → v = (data.insertionSort (· ≤ ·))[j]) := by
  have hn : 0 < data.length := List.length_pos_iff.2 hd
  have hn' : (1 : ℝ) ≤ data.length := by exact_mod_cast hn
  set h := ((data.length : ℝ) - 1) * q with hh
  have hpos : 0 ≤ h := mul_nonneg (by linarith) h0
  have hlen := List.length_insertionSort (· ≤ ·) data
  have hf := Nat.floor_le hpos
  have hf' := Nat.lt_floor_add_one h
  have hj : ⌊h⌋₊ < (data.insertionSort (· ≤ ·)).length := by
    rw [hlen]
    have : h ≤ (data.length : ℝ) - 1 := by rw [hh]; nlinarith
    have h2 : (⌊h⌋₊ : ℝ) + 1 ≤ data.length := by linarith
    have h3 : ⌊h⌋₊ + 1 ≤ data.length := by exact_mod_cast h2
    omega
  by_cases hs : ⌊h⌋₊ + 1 < (data.insertionSort (· ≤ ·)).length
  · have hm := sorted_le data ⌊h⌋₊ (⌊h⌋₊ + 1) (by omega) hs
    refine ⟨⌊h⌋₊, hj, (data.insertionSort (· ≤ ·))[⌊h⌋₊] + (h - ⌊h⌋₊) *
      ((data.insertionSort (· ≤ ·))[⌊h⌋₊ + 1] - (data.insertionSort (· ≤ ·))[⌊h⌋₊]), h - ⌊h⌋₊, ?_, hf, hf', rfl, ?_, ?_, ?_⟩
    · unfold npQuantile
      simp only
      rw [← hh, List.getElem?_eq_getElem hj, List.getElem?_eq_getElem hs]
      rfl
    · nlinarith
    · intro _
      refine ⟨rfl, ?_⟩
      nlinarith
    · intro hc; exact absurd hs hc
  · refine ⟨⌊h⌋₊, hj, (data.insertionSort (· ≤ ·))[⌊h⌋₊], h - ⌊h⌋₊, ?_, hf, hf', rfl, le_rfl, ?_, fun _ => rfl⟩
    · unfold npQuantile
      simp only
      rw [← hh, List.getElem?_eq_getElem hj, List.getElem?_eq_none (by omega)]
      rfl
    · intro hc; exact absurd hc hs

/-- C67: the target taken from an array with `n` values for the probability `q` has more than `(n - 1) q` values at or
below it and at least `(n - 1) (1 - q)` values at or above it. -/
theorem quantile_target_counts (data : List ℝ) (hd : data ≠ []) (q : ℝ) (h0 : 0 ≤ q) (h1 : q < 1) :
    ∃ v, npQuantile data q = some v ∧ ((data.length : ℝ) - 1) * q < (data.countP fun x => decide (x ≤ v)) ∧
      ((data.length : ℝ) - 1) * (1 - q) ≤ (data.countP fun x => decide (v ≤ x)) := by
  obtain ⟨j, hj, v, t, hv, hlo, hhi, ht, hge, hs, he⟩ := quantile_value data hd q h0 h1
  have hlen := List.length_insertionSort (· ≤ ·) data
  have hperm := List.perm_insertionSort (· ≤ ·) data
  refine ⟨v, hv, ?_, ?_⟩
  · rw [← hperm.countP_eq]
    have h3 : j + 1 ≤ (data.insertionSort (· ≤ ·)).countP fun x => decide (x ≤ v) := by
      have h4 := (List.take_sublist (j + 1) (data.insertionSort (· ≤ ·))).countP_le (p := fun x => decide (x ≤ v))
      rw [List.countP_eq_length.2] at h4
      · rwa [List.length_take, Nat.min_eq_left (by omega)] at h4
      · intro x hx
        rw [List.mem_take_iff_getElem] at hx
        obtain ⟨i, hi, rfl⟩ := hx
        simp only [decide_eq_true_eq]
        exact (sorted_le data i j (by omega) hj).trans hge
    have : ((j + 1 : ℕ) : ℝ) ≤ ((data.insertionSort (· ≤ ·)).countP fun x => decide (x ≤ v) : ℕ) := by exact_mod_cast h3
    push_cast at this
    linarith
  · rw [← hperm.countP_eq]
    by_cases hsucc : j + 1 < (data.insertionSort (· ≤ ·)).length
    · have hv2 := (hs hsucc).2
      have h3 : data.length - (j + 1) ≤ (data.insertionSort (· ≤ ·)).countP fun x => decide (v ≤ x) := by
        have h4 := (List.drop_sublist (j + 1) (data.insertionSort (· ≤ ·))).countP_le (p := fun x => decide (v ≤ x))
        rw [List.countP_eq_length.2] at h4
        · rwa [List.length_drop, hlen] at h4
        · intro x hx
          rw [List.mem_drop_iff_getElem] at hx
          obtain ⟨i, hi, rfl⟩ := hx
          simp only [decide_eq_true_eq]
          exact hv2.trans (sorted_le data (j + 1) (j + 1 + i) (by omega) (by omega))
      have h5 : ((data.length - (j + 1) : ℕ) : ℝ) ≤
          ((data.insertionSort (· ≤ ·)).countP fun x => decide (v ≤ x) : ℕ) := by exact_mod_cast h3
      rw [Nat.cast_sub (by omega)] at h5
      push_cast at h5
      nlinarith
    · have h6 : (data.length : ℝ) ≤ j + 1 := by
        have : data.length ≤ j + 1 := by omega
        exact_mod_cast this
      have h7 : (0 : ℝ) ≤ ((data.insertionSort (· ≤ ·)).countP fun x => decide (v ≤ x) : ℕ) := Nat.cast_nonneg _
      nlinarith

/-- C67: a larger probability never has a smaller target. -/
theorem quantile_target_mono (data : List ℝ) (hd : data ≠ []) (q q' : ℝ) (h0 : 0 ≤ q) (hq : q ≤ q') (h1 : q' < 1) :
    ∃ v v', npQuantile data q = some v ∧ npQuantile data q' = some v' ∧ v ≤ v' := by
  obtain ⟨j, hj, v, t, hv, hlo, hhi, ht, hge, hs, he⟩ := quantile_value data hd q h0 (by linarith)
  obtain ⟨j', hj', v', t', hv', hlo', hhi', ht', hge', hs', he'⟩ := quantile_value data hd q' (by linarith) h1
  have hn' : (1 : ℝ) ≤ data.length := by exact_mod_cast List.length_pos_iff.2 hd
  have hle : ((data.length : ℝ) - 1) * q ≤ ((data.length : ℝ) - 1) * q' := mul_le_mul_of_nonneg_left hq (by linarith)
  have hjj : j ≤ j' := by
    have : (j : ℝ) < j' + 1 := by linarith
    have : j < j' + 1 := by exact_mod_cast this
    omega
  refine ⟨v, v', hv, hv', ?_⟩
  rcases hjj.eq_or_lt with rfl | hlt
  · by_cases hsucc : j + 1 < (data.insertionSort (· ≤ ·)).length
    · rw [(hs hsucc).1, (hs' hsucc).1]
      have hm := sorted_le data j (j + 1) (by omega) hsucc
      have : t ≤ t' := by linarith
      nlinarith
    · rw [he hsucc, he' hsucc]
  · have hsucc : j + 1 < (data.insertionSort (· ≤ ·)).length := by omega
    exact ((hs hsucc).2.trans (sorted_le data (j + 1) j' (by omega) hj')).trans hge'

example : ∃ v, npQuantile [3, 1, 2] 0.5 = some v ∧ ((3 : ℝ) - 1) * 0.5 < ([3, 1, 2].countP fun x : ℝ => decide (x ≤ v)) := by
  obtain ⟨v, h1, h2, -⟩ := quantile_target_counts [3, 1, 2] (by simp) 0.5 (by norm_num) (by norm_num)
  exact ⟨v, h1, by simpa using h2⟩

/-- C67: match_quantiles is silent exactly if every quantile is within one part in a thousand of its target (relative to the
target shifted by 1e-6), and the warning lists exactly the others. -/
theorem quantiles_silent_iff (target requested : List ℝ) (h : ∀ t ∈ target, t + 1e-6 ≠ 0) :
    (quantilesWarn target requested = false ↔ ∀ p ∈ requested.zip target, |p.1 - p.2| ≤ 1e-3 * |p.2 + 1e-6|) ∧
    ∀ i, i ∈ listed 0.1 target requested ↔
      ∃ r t, requested[i]? = some r ∧ target[i]? = some t ∧ 1e-3 * |t + 1e-6| < |r - t| := by
  have key : ∀ r t : ℝ, t + 1e-6 ≠ 0 → (|(r - t) / (t + 1e-6) * 100| > 0.1 ↔ 1e-3 * |t + 1e-6| < |r - t|) := by
    intro r t ht
    have h0 := abs_pos.2 ht
    rw [abs_mul, abs_div, gt_iff_lt, div_mul_eq_mul_div, lt_div_iff₀ h0, abs_of_pos (by norm_num : (0 : ℝ) < 100)]
    constructor <;> intro h <;> norm_num at h ⊢ <;> linarith
  refine ⟨?_, ?_⟩
  · simp only [quantilesWarn, List.any_eq_false, decide_eq_true_eq]
    refine forall₂_congr fun p hp => ?_
    rw [key p.1 p.2 (h p.2 (List.of_mem_zip hp).2), not_lt]
  · intro i
    simp only [listed, List.mem_map, List.mem_filter, decide_eq_true_eq, Prod.exists, exists_eq_right]
    constructor
    · rintro ⟨r, t, h1, h2⟩
      rw [List.mem_zipIdx_iff_getElem?] at h1
      simp only at h1
      rw [List.getElem?_zip_eq_some] at h1
      obtain ⟨h3, h4⟩ := h1
      exact ⟨r, t, h3, h4, (key r t (h t (List.mem_of_getElem? h4))).1 h2⟩
    · rintro ⟨r, t, h3, h4, h5⟩
      refine ⟨r, t, ?_, (key r t (h t (List.mem_of_getElem? h4))).2 h5⟩
      rw [List.mem_zipIdx_iff_getElem?]
      simp only
      rw [List.getElem?_zip_eq_some]
      exact ⟨h3, h4⟩

example : listed 0.1 [1, 2, 3] [1, 2.1, 3] = [1] := by
  norm_num [listed, List.filter]

end Verif.Props
