import Verif.Lemmas.MlNegBin
import Mathlib.Algebra.Order.Chebyshev
import Mathlib.Analysis.SpecialFunctions.Integrals.Basic
import Mathlib.MeasureTheory.Integral.IntervalIntegral.FundThmCalculus
import Mathlib.Tactic

/-!
# There is only one most likely NegativeBinomial

Let `A j` be the fraction of the sample above `j` and `m` the mean, so that `m = ∑ A j`.  At the best mean the derivative of
the log-likelihood per observation is `∑ A j / (a + j) - ∫_0^m du / (a + u)`.  The function
`nbGap u = ∑ A j (u - j)⁺ - ∫_0^m (u - v)⁺ dv` is first nonnegative and then negative (`nbGap_cross`); `c` is the point where that
changes.  Twice integrating by parts shows that `(a + c)^3` times the derivative falls strictly with `a`, so there is at most
one zero.
-/

namespace Verif.Ml
open Verif.Spec Filter Topology

section Gap
variable (A : ℕ → ℝ) (J : ℕ) (m : ℝ)

/-- `∫_0^m (u - v)⁺ dv` -/
noncomputable def nbQuad (u : ℝ) : ℝ := min u m * u - min u m ^ 2 / 2

noncomputable def nbGap (u : ℝ) : ℝ := ∑ j ∈ Finset.range J, A j * max (u - j) 0 - nbQuad m u

variable {A J m}

theorem quad_diff_ge {p u v : ℝ} (hu : p ≤ u) (hv : u ≤ v) (hm : p ≤ m) : p * (v - u) ≤ nbQuad m v - nbQuad m u := by
  unfold nbQuad
  rcases le_total u m with h1 | h1 <;> rcases le_total v m with h2 | h2
  · rw [min_eq_left h1, min_eq_left h2]; nlinarith
  · rw [min_eq_left h1, min_eq_right h2]; nlinarith
  · rw [min_eq_right h1, min_eq_left h2]
    have : u = m := by linarith
    have : v = m := by linarith
    subst_vars
    nlinarith
  · rw [min_eq_right h1, min_eq_right h2]; nlinarith

/-- the graph lies above its tangents -/
theorem quad_tangent (u v : ℝ) : nbQuad m u + min u m * (v - u) ≤ nbQuad m v := by
  unfold nbQuad
  rcases le_total u m with h1 | h1 <;> rcases le_total v m with h2 | h2
  · rw [min_eq_left h1, min_eq_left h2]; nlinarith [sq_nonneg (u - v)]
  · rw [min_eq_left h1, min_eq_right h2]
    have : 0 ≤ (m - u) * (2 * v - u - m) := mul_nonneg (by linarith) (by linarith)
    nlinarith
  · rw [min_eq_right h1, min_eq_left h2]; nlinarith [sq_nonneg (m - v)]
  · rw [min_eq_right h1, min_eq_right h2]; nlinarith

private theorem sum_cut (hJ : ∀ j, J ≤ j → A j = 0) (f : ℕ → ℝ) (n : ℕ) (hf : ∀ j, n ≤ j → f j = 0) :
    ∑ j ∈ Finset.range J, A j * f j = ∑ j ∈ Finset.range n, A j * f j := by
  have h1 : ∀ k, J ≤ k → n ≤ k → ∑ j ∈ Finset.range k, A j * f j = ∑ j ∈ Finset.range J, A j * f j := by
    intro k hk _
    refine (Finset.sum_subset (Finset.range_mono hk) fun j _ hj => ?_).symm
    rw [hJ j (by simpa using hj), zero_mul]
  have h2 : ∀ k, J ≤ k → n ≤ k → ∑ j ∈ Finset.range k, A j * f j = ∑ j ∈ Finset.range n, A j * f j := by
    intro k _ hk
    refine (Finset.sum_subset (Finset.range_mono hk) fun j _ hj => ?_).symm
    rw [hf j (by simpa using hj), mul_zero]
  rw [← h1 (max J n) (le_max_left _ _) (le_max_right _ _), h2 (max J n) (le_max_left _ _) (le_max_right _ _)]

/-- between two neighbouring integers -/
private theorem gap_piece (hJ : ∀ j, J ≤ j → A j = 0) (n : ℕ) (u : ℝ) (h1 : (n : ℝ) ≤ u) (h2 : u ≤ n + 1) :
    nbGap A J m u = (∑ j ∈ Finset.range (n + 1), A j) * u - ∑ j ∈ Finset.range (n + 1), A j * j - nbQuad m u := by
  unfold nbGap
  rw [sum_cut hJ (fun j => max (u - j) 0) (n + 1) ?_, Finset.sum_mul, ← Finset.sum_sub_distrib]
  · congr 1
    refine Finset.sum_congr rfl fun j hj => ?_
    have : (j : ℝ) ≤ n := by exact_mod_cast Nat.lt_succ_iff.1 (Finset.mem_range.1 hj)
    rw [max_eq_left (by linarith)]
    ring
  · intro j hj
    have : ((n + 1 : ℕ) : ℝ) ≤ j := by exact_mod_cast hj
    push_cast at this
    exact max_eq_right (by linarith)

/-- where the sum exceeds the argument, the function is not negative -/
private theorem gap_node (hA : Antitone A) (hJ : ∀ j, J ≤ j → A j = 0) (n : ℕ) (hn : (n : ℝ) < ∑ j ∈ Finset.range (n + 1), A j)
    (hnm : (n : ℝ) ≤ m) : 0 ≤ nbGap A J m n := by
  rw [gap_piece hJ n n le_rfl (by linarith)]
  unfold nbQuad
  rw [min_eq_left hnm, Finset.sum_mul, ← Finset.sum_sub_distrib]
  have hmon : MonovaryOn A (fun j : ℕ => (n : ℝ) - j) (Finset.range (n + 1) : Set ℕ) := by
    intro i _ j _ hij
    refine hA ?_
    have : (j : ℝ) < i := by linarith
    exact_mod_cast this.le
  have hch := hmon.sum_mul_sum_le_card_mul_sum
  have hsum : ∑ j ∈ Finset.range (n + 1), ((n : ℝ) - j) = n * (n + 1) / 2 := by
    have : ∀ k : ℕ, ∑ j ∈ Finset.range k, ((n : ℝ) - j) = n * k - k * (k - 1) / 2 := by
      intro k
      induction k with
      | zero => simp
      | succ k ih => rw [Finset.sum_range_succ, ih]; push_cast; ring
    rw [this]
    push_cast
    ring
  rw [hsum, Finset.card_range] at hch
  have h0 : (0 : ℝ) ≤ n := by positivity
  have h3 : ∑ j ∈ Finset.range (n + 1), (A j * n - A j * j) = ∑ j ∈ Finset.range (n + 1), A j * ((n : ℝ) - j) :=
    Finset.sum_congr rfl fun j _ => by ring
  rw [h3]
  push_cast at hch
  have h4 : (n : ℝ) * (n * (n + 1) / 2) ≤ (n + 1) * ∑ j ∈ Finset.range (n + 1), A j * ((n : ℝ) - j) :=
    (mul_le_mul_of_nonneg_right hn.le (by positivity)).trans hch
  have h5 : (n : ℝ) * n / 2 ≤ ∑ j ∈ Finset.range (n + 1), A j * ((n : ℝ) - j) := by
    have h6 : ((n : ℝ) + 1) * (n * n / 2) ≤ (n + 1) * ∑ j ∈ Finset.range (n + 1), A j * ((n : ℝ) - j) := by linarith
    exact le_of_mul_le_mul_left h6 (by positivity)
  nlinarith

private theorem sum_le_m (hA0 : ∀ j, 0 ≤ A j) (hJ : ∀ j, J ≤ j → A j = 0) (hm : m = ∑ j ∈ Finset.range J, A j) (n : ℕ) :
    ∑ j ∈ Finset.range n, A j ≤ m := by
  rw [hm]
  have := sum_cut hJ (fun j => if j < n then 1 else 0) n fun j hj => by simp [not_lt.2 hj]
  have h2 : ∑ j ∈ Finset.range n, A j = ∑ j ∈ Finset.range n, A j * (if j < n then 1 else 0) :=
    Finset.sum_congr rfl fun j hj => by simp [Finset.mem_range.1 hj]
  rw [h2, ← this]
  refine Finset.sum_le_sum fun j _ => ?_
  split_ifs
  · simp
  · simpa using hA0 j

/-- inside a piece a negative value is followed by negative ones -/
private theorem gap_up_piece (hA : Antitone A) (hA0 : ∀ j, 0 ≤ A j) (hJ : ∀ j, J ≤ j → A j = 0)
    (hm : m = ∑ j ∈ Finset.range J, A j) (n : ℕ) (u v : ℝ) (h1 : (n : ℝ) ≤ u) (huv : u ≤ v) (h2 : v ≤ n + 1)
    (hu : nbGap A J m u < 0) : nbGap A J m v < 0 := by
  have hle := sum_le_m hA0 hJ hm (n + 1)
  rcases le_or_gt (∑ j ∈ Finset.range (n + 1), A j) n with h | h
  · refine lt_of_le_of_lt ?_ hu
    rw [gap_piece hJ n u h1 (by linarith), gap_piece hJ n v (by linarith) h2]
    have := quad_diff_ge (h.trans h1) huv hle
    linarith
  · have hn := gap_node hA hJ n h (h.le.trans hle)
    by_contra hv
    rw [not_lt] at hv
    rw [gap_piece hJ n u h1 (by linarith)] at hu
    rw [gap_piece hJ n v (by linarith) h2] at hv
    rw [gap_piece hJ n n le_rfl (by linarith)] at hn
    have t1 := quad_tangent (m := m) u v
    have t2 := quad_tangent (m := m) u n
    rcases h1.eq_or_lt with e | h1
    · rw [← e] at hu; linarith
    set S := ∑ j ∈ Finset.range (n + 1), A j
    set B := ∑ j ∈ Finset.range (n + 1), A j * (j : ℝ)
    -- at `u` the slope is `S - min u m`; it would have to be positive and negative
    have s1 : 0 < (S - min u m) * (v - u) := by nlinarith
    have s2 : 0 < (S - min u m) * (n - u) := by nlinarith
    rcases huv.eq_or_lt with e | h3
    · rw [e] at s1; simp at s1
    have p1 : 0 < S - min u m := by
      by_contra hc
      exact absurd s1 (not_lt.2 (mul_nonpos_of_nonpos_of_nonneg (not_lt.1 hc) (by linarith)))
    have := mul_neg_of_pos_of_neg p1 (show (n : ℝ) - u < 0 by linarith)
    linarith

theorem gap_up (hA : Antitone A) (hA0 : ∀ j, 0 ≤ A j) (hJ : ∀ j, J ≤ j → A j = 0)
    (hm : m = ∑ j ∈ Finset.range J, A j) (u v : ℝ) (hu0 : 0 ≤ u) (huv : u ≤ v) (hu : nbGap A J m u < 0) : nbGap A J m v < 0 := by
  have key : ∀ n : ℕ, ∀ w, u ≤ w → w ≤ ⌊u⌋₊ + 1 + n → nbGap A J m w < 0 := by
    intro n
    induction n with
    | zero =>
      intro w h1 h2
      exact gap_up_piece hA hA0 hJ hm ⌊u⌋₊ u w (Nat.floor_le hu0) h1 (by simpa using h2) hu
    | succ n ih =>
      intro w h1 h2
      rcases le_total w (⌊u⌋₊ + 1 + n) with h | h
      · exact ih w h1 h
      · have h3 : u ≤ (⌊u⌋₊ : ℝ) + 1 + n := by
          have := (Nat.lt_floor_add_one u).le
          have hn : (0 : ℝ) ≤ n := by positivity
          linarith
        have := ih _ h3 le_rfl
        refine gap_up_piece hA hA0 hJ hm (⌊u⌋₊ + 1 + n) ((⌊u⌋₊ : ℝ) + 1 + n) w (by push_cast; linarith) h ?_ this
        push_cast at h2 ⊢
        linarith
  refine key ⌈v⌉₊ v huv ?_
  have := Nat.le_ceil v
  have h2 : (0 : ℝ) ≤ ⌊u⌋₊ := by positivity
  linarith

/-- far out the function is constant -/
theorem gap_end (hm : m = ∑ j ∈ Finset.range J, A j) (u : ℝ) (h1 : (J : ℝ) ≤ u) (h2 : m ≤ u) :
    nbGap A J m u = m ^ 2 / 2 - ∑ j ∈ Finset.range J, A j * j := by
  unfold nbGap nbQuad
  rw [min_eq_right h2]
  have : ∑ j ∈ Finset.range J, A j * max (u - j) 0 = m * u - ∑ j ∈ Finset.range J, A j * j := by
    rw [hm, Finset.sum_mul, ← Finset.sum_sub_distrib]
    refine Finset.sum_congr rfl fun j hj => ?_
    have : (j : ℝ) ≤ J := by exact_mod_cast (Finset.mem_range.1 hj).le
    rw [max_eq_left (by linarith)]
    ring
  rw [this]
  ring

/-- one change of sign -/
theorem nbGap_cross (hA : Antitone A) (hA0 : ∀ j, 0 ≤ A j) (hJ : ∀ j, J ≤ j → A j = 0) (hm : m = ∑ j ∈ Finset.range J, A j)
    (hv : m ^ 2 / 2 < ∑ j ∈ Finset.range J, A j * j) : ∃ c, 0 ≤ c ∧ ∀ u, 0 ≤ u → (u - c) * nbGap A J m u ≤ 0 := by
  set S : Set ℝ := {u | 0 ≤ u ∧ nbGap A J m u < 0} with hS
  have hne : S.Nonempty := by
    have h0 : 0 ≤ max (J : ℝ) m := le_trans (by positivity) (le_max_left _ _)
    refine ⟨max (J : ℝ) m, h0, ?_⟩
    rw [gap_end hm _ (le_max_left _ _) (le_max_right _ _)]
    linarith
  have hbd : BddBelow S := ⟨0, fun x hx => hx.1⟩
  refine ⟨sInf S, le_csInf hne fun x hx => hx.1, fun u hu => ?_⟩
  rcases lt_trichotomy u (sInf S) with h | h | h
  · have : 0 ≤ nbGap A J m u := by
      by_contra hc
      exact absurd (csInf_le hbd ⟨hu, not_le.1 hc⟩) (not_le.2 h)
    exact mul_nonpos_of_nonpos_of_nonneg (by linarith) this
  · rw [h]; simp
  · obtain ⟨w, hw, hwu⟩ := exists_lt_of_csInf_lt hne h
    exact mul_nonpos_of_nonneg_of_nonpos (by linarith) (gap_up hA hA0 hJ hm w u hw.1 hwu.le hw.2).le

/-! ### integrating by parts -/

private theorem int_ramp {f f1 f2 : ℝ → ℝ} (h1 : ∀ u, 0 ≤ u → HasDerivAt f (f1 u) u) (h2 : ∀ u, 0 ≤ u → HasDerivAt f1 (f2 u) u)
    (hc : ContinuousOn f2 (Set.Ici 0)) {j U : ℝ} (hj : 0 ≤ j) (hU : j ≤ U) :
    ∫ u in (0 : ℝ)..U, f2 u * max (u - j) 0 = (U - j) * f1 U - f U + f j := by
  have hcont : ∀ a b, 0 ≤ a → a ≤ b → ContinuousOn (fun u => f2 u * max (u - j) 0) (Set.uIcc a b) := by
    intro a b ha hab
    refine (hc.mono fun x hx => ?_).mul (by fun_prop)
    rw [Set.uIcc_of_le hab] at hx
    exact ha.trans hx.1
  rw [← intervalIntegral.integral_add_adjacent_intervals (hcont 0 j le_rfl hj).intervalIntegrable
    (hcont j U hj hU).intervalIntegrable]
  have z : ∫ u in (0 : ℝ)..j, f2 u * max (u - j) 0 = 0 := by
    have : ∫ u in (0 : ℝ)..j, f2 u * max (u - j) 0 = ∫ _u in (0 : ℝ)..j, (0 : ℝ) := by
      refine intervalIntegral.integral_congr fun x hx => ?_
      rw [Set.uIcc_of_le hj] at hx
      change f2 x * max (x - j) 0 = 0
      rw [max_eq_right (by linarith [hx.2]), mul_zero]
    rw [this]
    simp
  have e : ∫ u in j..U, f2 u * max (u - j) 0 = ∫ u in j..U, f2 u * (u - j) := by
    refine intervalIntegral.integral_congr fun x hx => ?_
    rw [Set.uIcc_of_le hU] at hx
    change f2 x * max (x - j) 0 = f2 x * (x - j)
    rw [max_eq_left (by linarith [hx.1])]
  rw [z, e, zero_add]
  have hd : ∀ u ∈ Set.uIcc j U, HasDerivAt (fun u => (u - j) * f1 u - f u) (f2 u * (u - j)) u := by
    intro u hu
    rw [Set.uIcc_of_le hU] at hu
    have h0 := hj.trans hu.1
    have := (((hasDerivAt_id u).sub_const j).mul (h2 u h0)).sub (h1 u h0)
    refine this.congr_deriv ?_
    simp only [id]
    ring
  rw [intervalIntegral.integral_eq_sub_of_hasDerivAt hd]
  · simp only [sub_self, zero_mul, zero_sub, sub_neg_eq_add]
  · refine ContinuousOn.intervalIntegrable ((hc.mono fun x hx => ?_).mul (by fun_prop))
    rw [Set.uIcc_of_le hU] at hx
    exact hj.trans hx.1

private theorem int_quad {g f f1 f2 : ℝ → ℝ} (h0 : ∀ u, 0 ≤ u → HasDerivAt g (f u) u) (h1 : ∀ u, 0 ≤ u → HasDerivAt f (f1 u) u)
    (h2 : ∀ u, 0 ≤ u → HasDerivAt f1 (f2 u) u)
    (hc : ContinuousOn f2 (Set.Ici 0)) {U : ℝ} (hm : 0 ≤ m) (hU : m ≤ U) :
    ∫ u in (0 : ℝ)..U, f2 u * nbQuad m u = g m - g 0 + f1 U * (U * m - m ^ 2 / 2) - m * f U := by
  have hcont : ∀ a b, 0 ≤ a → a ≤ b → ContinuousOn (fun u => f2 u * nbQuad m u) (Set.uIcc a b) := by
    intro a b ha hab
    refine (hc.mono fun x hx => ?_).mul (by unfold nbQuad; fun_prop)
    rw [Set.uIcc_of_le hab] at hx
    exact ha.trans hx.1
  rw [← intervalIntegral.integral_add_adjacent_intervals (hcont 0 m le_rfl hm).intervalIntegrable
    (hcont m U hm hU).intervalIntegrable]
  have e1 : ∫ u in (0 : ℝ)..m, f2 u * nbQuad m u = f1 m * (m ^ 2 / 2) - f m * m + g m - g 0 := by
    have hd : ∀ u ∈ Set.uIcc 0 m, HasDerivAt (fun u => f1 u * (u ^ 2 / 2) - f u * u + g u) (f2 u * nbQuad m u) u := by
      intro u hu
      rw [Set.uIcc_of_le hm] at hu
      have := ((((h2 u hu.1).mul (((hasDerivAt_id u).fun_pow 2).div_const 2)).sub ((h1 u hu.1).mul (hasDerivAt_id u))).add (h0 u hu.1))
      refine this.congr_deriv ?_
      unfold nbQuad
      rw [min_eq_left hu.2]
      simp only [id, Nat.cast_ofNat]
      ring
    rw [intervalIntegral.integral_eq_sub_of_hasDerivAt hd (hcont 0 m le_rfl hm).intervalIntegrable]
    ring
  have e2 : ∫ u in m..U, f2 u * nbQuad m u = f1 U * (U * m - m ^ 2 / 2) - m * f U - (f1 m * (m ^ 2 / 2) - m * f m) := by
    have hd : ∀ u ∈ Set.uIcc m U, HasDerivAt (fun u => f1 u * (u * m - m ^ 2 / 2) - m * f u) (f2 u * nbQuad m u) u := by
      intro u hu
      rw [Set.uIcc_of_le hU] at hu
      have hu0 := hm.trans hu.1
      have := ((h2 u hu0).mul (((hasDerivAt_id u).mul_const m).sub_const (m ^ 2 / 2))).sub ((h1 u hu0).const_mul m)
      refine this.congr_deriv ?_
      unfold nbQuad
      rw [min_eq_right hu.1]
      simp only [id]
      ring
    rw [intervalIntegral.integral_eq_sub_of_hasDerivAt hd (hcont m U hm hU).intervalIntegrable]
    ring
  rw [e1, e2]
  ring

theorem int_nbGap {g f f1 f2 : ℝ → ℝ} (h0 : ∀ u, 0 ≤ u → HasDerivAt g (f u) u) (h1 : ∀ u, 0 ≤ u → HasDerivAt f (f1 u) u)
    (h2 : ∀ u, 0 ≤ u → HasDerivAt f1 (f2 u) u) (hc : ContinuousOn f2 (Set.Ici 0)) (hm : m = ∑ j ∈ Finset.range J, A j)
    {U : ℝ} (hm0 : 0 ≤ m) (hmU : m ≤ U) (hJU : (J : ℝ) ≤ U) :
    ∫ u in (0 : ℝ)..U, f2 u * nbGap A J m u =
      f1 U * nbGap A J m U + (∑ j ∈ Finset.range J, A j * f j - (g m - g 0)) := by
  have hU0 := hm0.trans hmU
  have hsub : ∀ x ∈ Set.uIcc 0 U, x ∈ Set.Ici (0 : ℝ) := fun x hx => by
    rw [Set.uIcc_of_le hU0] at hx
    exact hx.1
  have hcU := hc.mono hsub
  have e : ∀ u, f2 u * nbGap A J m u = ∑ j ∈ Finset.range J, A j * (f2 u * max (u - j) 0) - f2 u * nbQuad m u := by
    intro u
    unfold nbGap
    rw [mul_sub, Finset.mul_sum]
    congr 1
    refine Finset.sum_congr rfl fun j _ => by ring
  simp only [e]
  have i1 : ∀ j ∈ Finset.range J, IntervalIntegrable (fun u => A j * (f2 u * max (u - j) 0)) MeasureTheory.volume 0 U :=
    fun j _ => ContinuousOn.intervalIntegrable ((hcU.mul (by fun_prop)).const_mul _ )
  have i2 : IntervalIntegrable (fun u => f2 u * nbQuad m u) MeasureTheory.volume 0 U :=
    ContinuousOn.intervalIntegrable (hcU.mul (by unfold nbQuad; fun_prop))
  rw [intervalIntegral.integral_sub ?_ i2, intervalIntegral.integral_finsetSum i1, int_quad h0 h1 h2 hc hm0 hmU]
  · have e3 : ∀ j ∈ Finset.range J, ∫ u in (0 : ℝ)..U, A j * (f2 u * max (u - j) 0) =
        (A j * U - A j * j) * f1 U - A j * f U + A j * f j := by
      intro j hj
      have : (j : ℝ) ≤ J := by exact_mod_cast (Finset.mem_range.1 hj).le
      rw [intervalIntegral.integral_const_mul, int_ramp h1 h2 hc (by positivity) (this.trans hJU)]
      ring
    rw [Finset.sum_congr rfl e3, Finset.sum_add_distrib, Finset.sum_sub_distrib, ← Finset.sum_mul, ← Finset.sum_mul,
      Finset.sum_sub_distrib, ← Finset.sum_mul, ← hm, gap_end hm U hJU hmU]
    ring
  · have := IntervalIntegrable.sum (μ := MeasureTheory.volume) (a := 0) (b := U) (Finset.range J) i1
    refine this.congr ?_
    intro x _
    simp

/-- what makes `(a + c)^3` times the score fall -/
theorem score_form_neg (hA : Antitone A) (hA0 : ∀ j, 0 ≤ A j) (hJ : ∀ j, J ≤ j → A j = 0)
    (hm : m = ∑ j ∈ Finset.range J, A j) (hv : m ^ 2 / 2 < ∑ j ∈ Finset.range J, A j * j) :
    ∃ c, 0 ≤ c ∧ ∀ a, 0 < a → ∑ j ∈ Finset.range J, A j * (3 / (a + j) - (a + c) / (a + j) ^ 2) -
      (3 * Real.log (a + m) + (a + c) / (a + m) - (3 * Real.log a + (a + c) / a)) < 0 := by
  obtain ⟨c, hc0, hc⟩ := nbGap_cross hA hA0 hJ hm hv
  refine ⟨c, hc0, fun a ha => ?_⟩
  have hm0 : 0 ≤ m := hm ▸ Finset.sum_nonneg fun j _ => hA0 j
  set U : ℝ := max (max (J : ℝ) m) c
  have hJU : (J : ℝ) ≤ U := (le_max_left _ _).trans (le_max_left _ _)
  have hmU : m ≤ U := (le_max_right _ _).trans (le_max_left _ _)
  have hcU : c ≤ U := le_max_right _ _
  have hd : ∀ u : ℝ, HasDerivAt (fun u => a + u) 1 u := fun u => (hasDerivAt_id u).const_add a
  have hi : ∀ u : ℝ, 0 ≤ u → HasDerivAt (fun u => (a + u)⁻¹) (-1 / (a + u) ^ 2) u := fun u hu =>
    (hd u).inv (by positivity)
  have key := int_nbGap (A := A) (J := J) (m := m)
    (g := fun u => 3 * Real.log (a + u) + (a + c) * (a + u)⁻¹)
    (f := fun u => 3 * (a + u)⁻¹ - (a + c) * (a + u)⁻¹ ^ 2)
    (f1 := fun u => -3 * (a + u)⁻¹ ^ 2 + 2 * (a + c) * (a + u)⁻¹ ^ 3)
    (f2 := fun u => 6 * (u - c) * (a + u)⁻¹ ^ 4) ?_ ?_ ?_ ?_ hm hm0 hmU hJU
  · have n1 : ∫ u in (0 : ℝ)..U, 6 * (u - c) * (a + u)⁻¹ ^ 4 * nbGap A J m u ≤ 0 := by
      have := intervalIntegral.integral_nonneg (a := 0) (b := U) (μ := MeasureTheory.volume)
        (f := fun u => -(6 * (u - c) * (a + u)⁻¹ ^ 4 * nbGap A J m u)) (hm0.trans hmU) fun u hu => ?_
      · rw [intervalIntegral.integral_neg] at this
        linarith
      · have h1 := hc u hu.1
        have h2 : 0 ≤ 6 * (a + u)⁻¹ ^ 4 := by
          have := hu.1
          positivity
        have h3 := mul_nonpos_of_nonneg_of_nonpos h2 h1
        linarith
    have n2 : 0 < (-3 * (a + U)⁻¹ ^ 2 + 2 * (a + c) * (a + U)⁻¹ ^ 3) * nbGap A J m U := by
      rw [gap_end hm U hJU hmU]
      refine mul_pos_of_neg_of_neg ?_ (by linarith)
      have hU0 : 0 < a + U := by linarith
      have : -3 * (a + U)⁻¹ ^ 2 + 2 * (a + c) * (a + U)⁻¹ ^ 3 = -(3 * (a + U) - 2 * (a + c)) / (a + U) ^ 3 := by
        field_simp
        ring
      rw [this]
      exact div_neg_of_neg_of_pos (by linarith) (by positivity)
    have e1 : ∑ j ∈ Finset.range J, A j * (3 / (a + j) - (a + c) / (a + j) ^ 2) =
        ∑ j ∈ Finset.range J, A j * (3 * (a + j)⁻¹ - (a + c) * (a + j)⁻¹ ^ 2) := by
      refine Finset.sum_congr rfl fun j _ => ?_
      rw [inv_pow]
      rfl
    rw [e1]
    simp only [add_zero] at key
    simp only [div_eq_mul_inv] at *
    linarith
  · intro u hu
    have := (((hd u).log (by positivity : a + u ≠ 0)).const_mul 3).add ((hi u hu).const_mul (a + c))
    refine this.congr_deriv ?_
    field_simp
    ring
  · intro u hu
    have := ((hi u hu).const_mul 3).sub (((hi u hu).fun_pow 2).const_mul (a + c))
    refine this.congr_deriv ?_
    have : a + u ≠ 0 := by positivity
    simp only [show 2 - 1 = 1 from rfl, show 3 - 1 = 2 from rfl, pow_one, Nat.cast_ofNat]
    field_simp
    ring
  · intro u hu
    have := (((hi u hu).fun_pow 2).const_mul (-3)).add (((hi u hu).fun_pow 3).const_mul (2 * (a + c)))
    refine this.congr_deriv ?_
    have : a + u ≠ 0 := by positivity
    simp only [show 2 - 1 = 1 from rfl, show 3 - 1 = 2 from rfl, pow_one, Nat.cast_ofNat]
    field_simp
    ring
  · refine ContinuousOn.mul (by fun_prop) (ContinuousOn.pow (ContinuousOn.inv₀ (by fun_prop) fun u hu => ?_) 4)
    have : 0 ≤ u := hu
    positivity

end Gap

/-! ### the sample -/

/-- the fraction above `j` -/
noncomputable def exceed (s : List ℕ) (j : ℕ) : ℝ := (s.countP (j < ·) : ℝ) / s.length

private theorem sum_over (s : List ℕ) (J : ℕ) (hJ : ∀ x ∈ s, x ≤ J) (f : ℕ → ℝ) :
    (s.map fun x => ∑ j ∈ Finset.range x, f j).sum = ∑ j ∈ Finset.range J, (s.countP (j < ·) : ℝ) * f j := by
  induction s with
  | nil => simp
  | cons x t ih =>
    rw [List.map_cons, List.sum_cons, ih fun y hy => hJ y (List.mem_cons_of_mem _ hy)]
    have h1 : ∑ j ∈ Finset.range x, f j = ∑ j ∈ Finset.range J, if j < x then f j else 0 := by
      rw [← Finset.sum_filter]
      refine Finset.sum_congr ?_ fun _ _ => rfl
      ext j
      have := hJ x List.mem_cons_self
      simp only [Finset.mem_range, Finset.mem_filter]
      omega
    rw [h1, ← Finset.sum_add_distrib]
    refine Finset.sum_congr rfl fun j _ => ?_
    rw [List.countP_cons]
    by_cases h : j < x
    · simp only [h, if_true, decide_true]
      push_cast
      ring
    · simp [h]

private theorem gauss (x : ℕ) : ∑ j ∈ Finset.range x, (j : ℝ) = ((x : ℝ) ^ 2 - x) / 2 := by
  induction x with
  | zero => simp
  | succ n ih => rw [Finset.sum_range_succ, ih]; push_cast; ring

private theorem harm_deriv {a : ℝ} (ha : 0 < a) (x : ℕ) :
    HasDerivAt (fun a => harm a x) (∑ j ∈ Finset.range x, -((a + j) ^ 2)⁻¹) a := by
  unfold harm
  refine HasDerivAt.fun_sum fun j _ => ?_
  have := ((hasDerivAt_id a).add_const (j : ℝ)).inv (by simp only [id]; positivity)
  refine this.congr_deriv ?_
  simp only [id]
  rw [neg_div, one_div]

private theorem harms_deriv {a : ℝ} (ha : 0 < a) (s : List ℕ) :
    HasDerivAt (fun a => (s.map fun x => harm a x).sum) ((s.map fun x => ∑ j ∈ Finset.range x, -((a + j) ^ 2)⁻¹).sum) a := by
  induction s with
  | nil => simpa using hasDerivAt_const a (0 : ℝ)
  | cons x t ih =>
    simp only [List.map_cons, List.sum_cons]
    exact (harm_deriv ha x).add ih

/-- more variance than mean: a multiple of the derivative of the log-likelihood falls strictly -/
theorem score_anti (s : List ℕ) (hs : s ≠ []) (m : ℝ) (hm : 0 < m) (hT : tot s = s.length * m)
    (hv : s.length * (m ^ 2 + m) < sqTot s) : ∃ c, 0 ≤ c ∧ StrictAntiOn (fun a => (a + c) ^ 3 * score s m a) (Set.Ioi 0) := by
  have hn : (0 : ℝ) < s.length := by exact_mod_cast List.length_pos_iff.2 hs
  obtain ⟨J, hJ⟩ : ∃ J : ℕ, ∀ x ∈ s, x ≤ J := ⟨s.sum, fun x hx => List.single_le_sum (by simp) x hx⟩
  have hsum : ∀ f : ℕ → ℝ, (s.map fun x => ∑ j ∈ Finset.range x, f j).sum = s.length * ∑ j ∈ Finset.range J, exceed s j * f j := by
    intro f
    rw [sum_over s J hJ f, Finset.mul_sum]
    refine Finset.sum_congr rfl fun j _ => ?_
    unfold exceed
    field_simp
  have hA : Antitone (exceed s) := by
    intro i j hij
    unfold exceed
    refine div_le_div_of_nonneg_right ?_ hn.le
    have : s.countP (j < ·) ≤ s.countP (i < ·) := List.countP_mono_left fun x _ h => by
      simp only [decide_eq_true_eq] at h ⊢
      omega
    exact_mod_cast this
  have hA0 : ∀ j, 0 ≤ exceed s j := fun j => by unfold exceed; positivity
  have hAJ : ∀ j, J ≤ j → exceed s j = 0 := by
    intro j hj
    unfold exceed
    rw [List.countP_eq_zero.2 fun x hx => by
      have := hJ x hx
      simp only [decide_eq_true_eq]
      omega]
    simp
  have hmA : m = ∑ j ∈ Finset.range J, exceed s j := by
    have := hsum fun _ => 1
    simp only [Finset.sum_const, Finset.card_range, nsmul_eq_mul, mul_one] at this
    have h2 := hT.symm.trans this
    exact mul_left_cancel₀ hn.ne' h2
  have hvA : m ^ 2 / 2 < ∑ j ∈ Finset.range J, exceed s j * j := by
    have := hsum fun j => (j : ℝ)
    simp only [gauss] at this
    have e : (s.map fun x : ℕ => ((x : ℝ) ^ 2 - x) / 2).sum = (sqTot s - tot s) / 2 := by
      have h1 : ∀ x : ℕ, ((x : ℝ) ^ 2 - x) / 2 = (1 / 2) * (x : ℝ) ^ 2 + (-1 / 2) * x := fun x => by ring
      simp only [h1]
      rw [lsum_add, lsum_mul, lsum_mul]
      unfold sqTot tot
      ring
    rw [e, hT] at this
    have h3 : s.length * (m ^ 2 / 2) < s.length * ∑ j ∈ Finset.range J, exceed s j * j := by rw [← this]; linarith
    exact lt_of_mul_lt_mul_left h3 hn.le
  obtain ⟨c, hc0, hc⟩ := score_form_neg hA hA0 hAJ hmA hvA
  refine ⟨c, hc0, ?_⟩
  have hd : ∀ a, 0 < a → HasDerivAt (fun a => (a + c) ^ 3 * score s m a)
      ((a + c) ^ 2 * (s.length * (∑ j ∈ Finset.range J, exceed s j * (3 / (a + j) - (a + c) / (a + j) ^ 2) -
      (3 * Real.log (a + m) + (a + c) / (a + m) - (3 * Real.log a + (a + c) / a))))) a := by
    intro a ha
    have h1 := ((hasDerivAt_id a).add_const c).fun_pow 3
    have h2 := harms_deriv ha s
    have h3 := (((hasDerivAt_id a).add_const m).log (by simp only [id]; positivity)).sub (Real.hasDerivAt_log ha.ne')
    have h4 := h1.mul (h2.sub (h3.const_mul (s.length : ℝ)))
    refine (h4.congr_deriv ?_)
    have e1 : (s.map fun x => harm a x).sum = s.length * ∑ j ∈ Finset.range J, exceed s j * (a + j)⁻¹ := hsum fun j => (a + j)⁻¹
    have e2 := hsum fun j => -((a + j) ^ 2)⁻¹
    have e3 : ∑ j ∈ Finset.range J, exceed s j * (3 / (a + j) - (a + c) / (a + j) ^ 2) =
        3 * ∑ j ∈ Finset.range J, exceed s j * (a + j)⁻¹ + (a + c) * ∑ j ∈ Finset.range J, exceed s j * -((a + j) ^ 2)⁻¹ := by
      rw [Finset.mul_sum, Finset.mul_sum, ← Finset.sum_add_distrib]
      refine Finset.sum_congr rfl fun j _ => ?_
      rw [div_eq_mul_inv, div_eq_mul_inv]
      ring
    rw [e3]
    simp only [Pi.sub_apply, id]
    rw [e1, e2]
    have hx : a + m ≠ 0 := by positivity
    simp only [show 3 - 1 = 2 from rfl, Nat.cast_ofNat]
    generalize ∑ j ∈ Finset.range J, exceed s j * (a + j)⁻¹ = X
    generalize ∑ j ∈ Finset.range J, exceed s j * -((a + j) ^ 2)⁻¹ = Y
    field_simp
    ring
  refine strictAntiOn_of_deriv_neg (convex_Ioi 0) (fun x hx => (hd x hx).continuousAt.continuousWithinAt) ?_
  intro a ha
  rw [interior_Ioi] at ha
  rw [(hd a ha).deriv]
  have ha : 0 < a := ha
  exact mul_neg_of_pos_of_neg (by positivity) (mul_neg_of_pos_of_neg hn (hc a ha))

/-- there is at most one best `alpha` -/
theorem nb_one (s : List ℕ) (hs : s ≠ []) (m : ℝ) (hm : 0 < m) (hT : tot s = s.length * m)
    (hv : s.length * (m ^ 2 + m) < sqTot s) (a b : ℝ) (ha : 0 < a) (hb : 0 < b)
    (h1 : ∀ d, 0 < d → nbObj s m d ≤ nbObj s m a) (h2 : ∀ d, 0 < d → nbObj s m d ≤ nbObj s m b) : a = b := by
  obtain ⟨c, hc, hanti⟩ := score_anti s hs m hm hT hv
  have hz : ∀ a, 0 < a → (∀ d, 0 < d → nbObj s m d ≤ nbObj s m a) → (a + c) ^ 3 * score s m a = 0 := by
    intro a ha h
    have h3 : IsLocalMax (fun b => nbObj s m b) a := by
      filter_upwards [Ioi_mem_nhds ha] with b hb
      exact h b hb
    rw [h3.hasDerivAt_eq_zero (nb_deriv s m a hm ha hT), mul_zero]
  exact hanti.injOn ha hb ((hz a ha h1).trans (hz b hb h2).symm)

end Verif.Ml
