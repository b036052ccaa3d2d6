import Mathlib.Topology.Instances.AddCircle.DenseSubgroup
import Mathlib.Analysis.SpecialFunctions.Log.Basic
import Mathlib.Tactic

/-!
# Halving and multiplying by three halves

The exponents form an irrational rotation of a circle of length `log 3`.
-/

namespace Verif.Rotation
open Real

theorem irrational_ratio : Irrational (log (3 / 2) / log 3) := by
  rintro ⟨q, hq⟩
  have h3 : 0 < log 3 := log_pos (by norm_num)
  have h32 : 0 < log (3 / 2 : ℝ) := log_pos (by norm_num)
  have hqpos : 0 < (q : ℝ) := by rw [hq]; positivity
  have hqpos' : 0 < q := by exact_mod_cast hqpos
  have hden : (0 : ℝ) < q.den := by exact_mod_cast q.den_pos
  have hnum : 0 < q.num := Rat.num_pos.2 hqpos'
  obtain ⟨n, hn⟩ : ∃ n : ℕ, q.num = n := ⟨q.num.toNat, by omega⟩
  have h1 : (q.den : ℝ) * log (3 / 2) = n * log 3 := by
    have : (q : ℝ) = (n : ℝ) / q.den := by
      have := Rat.cast_def (K := ℝ) q
      rw [this, hn, Int.cast_natCast]
    rw [this] at hq
    field_simp at hq
    linarith
  have h2 : ((3 / 2 : ℝ)) ^ q.den = 3 ^ n := by
    have := congrArg exp h1
    rw [← log_pow, ← log_pow, exp_log (by positivity), exp_log (by positivity)] at this
    exact this
  have h4 : (3 : ℝ) ^ q.den = 3 ^ n * 2 ^ q.den := by
    rw [← h2, div_pow]; field_simp
  have h5 : (3 : ℕ) ^ q.den = 3 ^ n * 2 ^ q.den := by exact_mod_cast h4
  have hodd : Odd ((3 : ℕ) ^ q.den) := Odd.pow (by decide)
  rw [h5] at hodd
  have : Even (3 ^ n * 2 ^ q.den) := by
    apply Even.mul_left
    exact (Nat.even_pow.2 ⟨by decide, q.den_pos.ne'⟩)
  exact (Nat.not_odd_iff_even.2 this) hodd

/-- the forward orbit of an irrational rotation comes close to everything -/
theorem forward_dense {a L : ℝ} (hL : 0 < L) (h : Irrational (a / L)) (u x ε : ℝ) (hε : 0 < ε) :
    ∃ (n : ℕ) (m : ℤ), |u + n * a + m * L - x| < ε := by
  have hd := dense_addSubgroupClosure_pair_iff.2 h
  obtain ⟨z, hz, hz0, hzε⟩ : ∃ z ∈ (AddSubgroup.closure {a, L} : Set ℝ), 0 < z ∧ z < min ε L := by
    obtain ⟨z, hz, h1⟩ := hd.exists_between (show (0 : ℝ) < min ε L from lt_min hε hL)
    exact ⟨z, hz, h1.1, h1.2⟩
  obtain ⟨p, q, hpq⟩ := AddSubgroup.mem_closure_pair.1 hz
  simp only [zsmul_eq_mul] at hpq
  have hpne : p ≠ 0 := by
    rintro rfl
    simp only [Int.cast_zero, zero_mul, zero_add] at hpq
    have h1 : 0 < (q : ℝ) * L := by rw [hpq]; exact hz0
    have h2 : (0 : ℝ) < q := by
      by_contra hq; push Not at hq
      nlinarith
    have h3 : (1 : ℝ) ≤ q := by exact_mod_cast Int.add_one_le_iff.2 (by exact_mod_cast h2 : (0 : ℤ) < q)
    have h4 : z < L := lt_of_lt_of_le hzε (min_le_right _ _)
    nlinarith
  -- a forward jump `w = N a + M L`, small and non-zero
  obtain ⟨N, M, w, hw, hw0, hwε⟩ : ∃ (N : ℕ) (M : ℤ) (w : ℝ), w = N * a + M * L ∧ w ≠ 0 ∧ |w| < ε := by
    have hzε' : z < ε := lt_of_lt_of_le hzε (min_le_left _ _)
    rcases lt_or_gt_of_ne hpne with hp | hp
    · refine ⟨(-p).toNat, -q, -z, ?_, neg_ne_zero.2 hz0.ne', by rw [abs_neg, abs_of_pos hz0]; exact hzε'⟩
      have : (((-p).toNat : ℕ) : ℝ) = -p := by
        have : (((-p).toNat : ℕ) : ℤ) = -p := Int.toNat_of_nonneg (by omega)
        exact_mod_cast this
      rw [this, ← hpq]; push_cast; ring
    · refine ⟨p.toNat, q, z, ?_, hz0.ne', by rw [abs_of_pos hz0]; exact hzε'⟩
      have : ((p.toNat : ℕ) : ℝ) = p := by
        have : ((p.toNat : ℕ) : ℤ) = p := Int.toNat_of_nonneg (by omega)
        exact_mod_cast this
      rw [this, ← hpq]
  -- choose the lap so that the number of jumps is non-negative
  obtain ⟨K, hK⟩ : ∃ K : ℤ, 0 ≤ (x - u + K * L) / w := by
    rcases lt_or_gt_of_ne hw0 with hn | hp
    · obtain ⟨k, hk⟩ := exists_nat_gt ((x - u) / L)
      refine ⟨-k, ?_⟩
      rw [div_lt_iff₀ hL] at hk
      apply div_nonneg_of_nonpos
      · push_cast; nlinarith
      · exact hn.le
    · obtain ⟨k, hk⟩ := exists_nat_gt ((u - x) / L)
      refine ⟨k, ?_⟩
      rw [div_lt_iff₀ hL] at hk
      apply div_nonneg
      · push_cast; nlinarith
      · exact hp.le
  set r := (x - u + K * L) / w with hr
  set j := ⌊r⌋₊ with hj
  have h1 : (j : ℝ) ≤ r := Nat.floor_le hK
  have h2 : r < j + 1 := Nat.lt_floor_add_one r
  refine ⟨j * N, j * M - K, ?_⟩
  have h3 : u + ((j * N : ℕ) : ℝ) * a + ((j * M - K : ℤ) : ℝ) * L - x = (j - r) * w := by
    have : r * w = x - u + K * L := by rw [hr]; field_simp
    have h4 : (j - r) * w = j * w - (x - u + K * L) := by rw [sub_mul, this]
    rw [h4, hw]; push_cast; ring
  rw [h3, abs_mul]
  have h5 : |(j : ℝ) - r| ≤ 1 := by rw [abs_le]; constructor <;> linarith
  calc |(j : ℝ) - r| * |w| ≤ 1 * |w| := by gcongr
    _ < ε := by rw [one_mul]; exact hwε

/-- the search in logarithms -/
theorem search_close {u : ℕ → ℝ} {x : ℝ}
    (hu : ∀ k, u (k + 1) = if x < u k then u k - log 2 else u k + log (3 / 2)) {ε : ℝ} (hε : 0 < ε) :
    ∃ k, |u k - x| < ε := by
  have h2 : 0 < log 2 := log_pos (by norm_num)
  have h32 : 0 < log (3 / 2 : ℝ) := log_pos (by norm_num)
  have h3 : log 3 = log (3 / 2 : ℝ) + log 2 := by
    rw [← log_mul (by norm_num) (by norm_num)]; norm_num
  -- the window is entered
  have henter : ∃ k, x - log 2 ≤ u k ∧ u k ≤ x + log (3 / 2) := by
    by_contra hno
    push Not at hno
    rcases le_or_gt (u 0) x with h0 | h0
    · -- climbing
      have hclimb : ∀ k, u k = u 0 + k * log (3 / 2) ∧ u k ≤ x := by
        intro k
        induction k with
        | zero => simp [h0]
        | succ k ih =>
          have hstep := hu k
          rw [if_neg (not_lt.2 ih.2)] at hstep
          refine ⟨by rw [hstep, ih.1]; push_cast; ring, ?_⟩
          by_contra hgt
          push Not at hgt
          have := hno (k + 1) (by linarith)
          linarith [ih.2]
      obtain ⟨k, hk⟩ := exists_nat_gt ((x - u 0) / log (3 / 2))
      rw [div_lt_iff₀ h32] at hk
      have := (hclimb k).1 ▸ (hclimb k).2
      linarith
    · have hdown : ∀ k, u k = u 0 - k * log 2 ∧ x < u k := by
        intro k
        induction k with
        | zero => simp [h0]
        | succ k ih =>
          have hstep := hu k
          rw [if_pos ih.2] at hstep
          refine ⟨by rw [hstep, ih.1]; push_cast; ring, ?_⟩
          by_contra hgt
          push Not at hgt
          have := hno (k + 1) (by linarith [ih.2])
          linarith
      obtain ⟨k, hk⟩ := exists_nat_gt ((u 0 - x) / log 2)
      rw [div_lt_iff₀ h2] at hk
      have := (hdown k).1 ▸ (hdown k).2
      linarith
  obtain ⟨k0, hk0⟩ := henter
  have hwin : ∀ n, x - log 2 ≤ u (k0 + n) ∧ u (k0 + n) ≤ x + log (3 / 2) := by
    intro n
    induction n with
    | zero => exact hk0
    | succ n ih =>
      have hstep := hu (k0 + n)
      rw [← add_assoc, hstep]
      split_ifs with hc
      · constructor <;> linarith [ih.1, ih.2]
      · push Not at hc; constructor <;> linarith [ih.1, ih.2]
  have hrot : ∀ n : ℕ, ∃ m : ℤ, u (k0 + n) = u k0 + n * log (3 / 2) - m * log 3 := by
    intro n
    induction n with
    | zero => exact ⟨0, by simp⟩
    | succ n ih =>
      obtain ⟨m, hm⟩ := ih
      have hstep := hu (k0 + n)
      rw [← add_assoc, hstep]
      split_ifs with hc
      · exact ⟨m + 1, by rw [hm, h3]; push_cast; ring⟩
      · exact ⟨m, by rw [hm]; push_cast; ring⟩
  obtain ⟨n, m, hnm⟩ := forward_dense (by rw [h3]; linarith) irrational_ratio (u k0) x
    (min ε (min (log 2) (log (3 / 2)))) (by positivity)
  obtain ⟨m', hm'⟩ := hrot n
  refine ⟨k0 + n, ?_⟩
  have hw := hwin n
  set y := u (k0 + n) with hy
  have h4 : u k0 + n * log (3 / 2) + m * log 3 - x = y - x + (m + m') * log 3 := by rw [hm']; ring
  rw [h4] at hnm
  have hz : m + m' = 0 := by
    by_contra hne
    have hδ2 : |y - x + (m + m') * log 3| < log 2 :=
      lt_of_lt_of_le hnm ((min_le_right _ _).trans (min_le_left _ _))
    have hδ3 : |y - x + (m + m') * log 3| < log (3 / 2) :=
      lt_of_lt_of_le hnm ((min_le_right _ _).trans (min_le_right _ _))
    rw [abs_lt] at hδ2 hδ3
    rcases lt_or_gt_of_ne hne with hlt | hgt
    · have : ((m : ℝ) + m') ≤ -1 := by exact_mod_cast Int.le_sub_one_iff.2 hlt
      nlinarith [hw.1, hw.2]
    · have : (1 : ℝ) ≤ (m : ℝ) + m' := by exact_mod_cast Int.add_one_le_iff.2 hgt
      nlinarith [hw.1, hw.2]
  have hz' : (m : ℝ) + m' = 0 := by exact_mod_cast hz
  rw [hz', zero_mul, add_zero] at hnm
  exact lt_of_lt_of_le hnm (min_le_left _ _)

end Verif.Rotation
