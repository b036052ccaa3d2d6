import Verif.Spec.QuartileCount
import Verif.Lemmas.DiscreteWide
import Verif.Props.QuartileShape
import Verif.Props.DiscreteWide

/-!
# C152: quartile for distributions on the integers
-/

namespace Verif.Props
open MeasureTheory Set Verif.Spec Verif.Param Verif.NumFit Verif.Optim

/-! ### distribution functions -/

/-- the probability up to `x` is a finite sum -/
private theorem upto {f : ℤ → ℝ} (h0 : ∀ k, 0 ≤ f k) (a : ℤ) (hz : ∀ k, k < a → f k = 0) (x : ℝ) :
    (ofPmf f).real (Iic x) = ∑ k ∈ Finset.Icc a ⌊x⌋, f k := by
  unfold ofPmf Measure.real
  rw [Measure.sum_apply _ measurableSet_Iic, tsum_eq_sum (s := Finset.Icc a ⌊x⌋)]
  · rw [ENNReal.toReal_sum]
    · refine Finset.sum_congr rfl fun k hk => ?_
      have : ((k : ℤ) : ℝ) ∈ Iic x := Int.le_floor.1 (Finset.mem_Icc.1 hk).2
      simp [this, ENNReal.toReal_ofReal (h0 k)]
    · intro k hk
      simp only [Measure.smul_apply, smul_eq_mul]
      exact ENNReal.mul_ne_top ENNReal.ofReal_ne_top (measure_ne_top _ _)
  · intro k hk
    rw [Finset.mem_Icc, not_and_or, not_le, not_le] at hk
    rcases hk with hk | hk
    · simp [hz k hk]
    · have : ((k : ℤ) : ℝ) ∉ Iic x := fun h => absurd (Int.le_floor.2 h) (not_le.2 hk)
      simp [this]

private theorem upto_nat {f : ℕ → ℝ} (h0 : ∀ k, 0 ≤ f k) (x : ℝ) :
    (ofNatPmf f).real (Iic x) = ∑ k ∈ Finset.range (⌊x⌋ + 1).toNat, f k := by
  unfold ofNatPmf
  rw [upto (fun k => by split_ifs; exacts [le_rfl, h0 _]) 0 (fun k hk => by simp [hk])]
  rcases lt_or_ge ⌊x⌋ 0 with h | h
  · rw [Finset.Icc_eq_empty (by omega), show (⌊x⌋ + 1).toNat = 0 by omega]; simp
  · obtain ⟨n, hn⟩ := Int.eq_ofNat_of_zero_le h
    rw [hn, show ((n : ℤ) + 1).toNat = n + 1 by omega]
    rw [show Finset.Icc (0 : ℤ) n = (Finset.range (n + 1)).image fun k : ℕ => (k : ℤ) by
      ext k
      simp only [Finset.mem_Icc, Finset.mem_image, Finset.mem_range]
      constructor
      · intro h; exact ⟨k.toNat, by omega, by omega⟩
      · rintro ⟨m, h, rfl⟩; omega]
    rw [Finset.sum_image (fun a _ b _ h => by exact_mod_cast h)]
    refine Finset.sum_congr rfl fun k _ => ?_
    rw [if_neg (by omega), Int.toNat_natCast]

/-- **C152**: the distribution function of Geometric. -/
theorem geometric_below (p : ℝ) (h0 : 0 < p) (h1 : p ≤ 1) (x : ℝ) :
    (ofNatPmf (geometricPmf p)).real (Iic x) = 1 - (1 - p) ^ ⌊x⌋.toNat := by
  rw [upto_nat (fun k => by
    unfold geometricPmf; split_ifs
    · exact le_rfl
    · exact mul_nonneg h0.le (pow_nonneg (by linarith) _))]
  have main : ∀ n : ℕ, ∑ k ∈ Finset.range (n + 1), geometricPmf p k = 1 - (1 - p) ^ n := by
    intro n
    induction n with
    | zero => simp [geometricPmf]
    | succ n ih =>
      rw [Finset.sum_range_succ, ih, geometricPmf, if_neg (by omega), Nat.add_sub_cancel, pow_succ]
      ring
  rcases lt_or_ge ⌊x⌋ 0 with h | h
  · rw [show (⌊x⌋ + 1).toNat = 0 by omega, show ⌊x⌋.toNat = 0 by omega]; simp
  · rw [show (⌊x⌋ + 1).toNat = ⌊x⌋.toNat + 1 by omega, main]

/-- **C152**: Geometric.  A quarter of the probability is never at or below a value if a half, or three quarters, are at or below
another one; a half and three quarters are possible together exactly for a whole number and its double. -/
theorem geometric_quartiles (p : ℝ) (h0 : 0 < p) (h1 : p ≤ 1) (x y : ℝ) :
    ¬ ((ofNatPmf (geometricPmf p)).real (Iic x) = 1 / 4 ∧ (ofNatPmf (geometricPmf p)).real (Iic y) = 1 / 2) ∧
    ¬ ((ofNatPmf (geometricPmf p)).real (Iic x) = 1 / 4 ∧ (ofNatPmf (geometricPmf p)).real (Iic y) = 3 / 4) ∧
    ((ofNatPmf (geometricPmf p)).real (Iic x) = 1 / 2 → ((ofNatPmf (geometricPmf p)).real (Iic y) = 3 / 4 ↔ ⌊y⌋ = 2 * ⌊x⌋)) := by
  simp only [geometric_below p h0 h1]
  set a := ⌊x⌋.toNat with ha
  set b := ⌊y⌋.toNat
  set r := 1 - p with hr
  have hr0 : 0 ≤ r := by linarith
  have hr1 : r < 1 := by linarith
  have swap : ∀ u v : ℝ, r ^ a = u → r ^ b = v → u ^ b = v ^ a := by
    rintro _ _ rfl rfl; rw [← pow_mul, ← pow_mul, mul_comm]
  have no3 : ∀ (k : ℕ), b ≠ 0 → (3 : ℝ) ^ b ≠ 2 ^ k := by
    intro k hb h
    have h' : (3 : ℕ) ^ b = 2 ^ k := by exact_mod_cast h
    have : Odd ((3 : ℕ) ^ b) := (by decide : Odd 3).pow
    rw [h'] at this
    rcases Nat.eq_zero_or_pos k with rfl | hk
    · have : 1 < (3 : ℕ) ^ b := Nat.one_lt_pow hb (by norm_num)
      omega
    · exact absurd (even_two.pow_of_ne_zero hk.ne') (Nat.not_even_iff_odd.2 this)
  refine ⟨?_, ?_, ?_⟩
  · rintro ⟨h2, h3⟩
    have e := swap (3 / 4) (1 / 2) (by linarith) (by linarith)
    have hb0 : b ≠ 0 := by
      intro h; rw [h, pow_zero] at h3; norm_num at h3
    rw [div_pow, div_pow, one_pow, div_eq_div_iff (by positivity) (by positivity), one_mul,
      show (4 : ℝ) = 2 ^ 2 by norm_num, ← pow_mul] at e
    have hle : a ≤ 2 * b := by
      by_contra hlt
      have h5 : (2 : ℝ) ^ a > 2 ^ (2 * b) := pow_lt_pow_right₀ (by norm_num) (by omega)
      have h6 : (1 : ℝ) ≤ 3 ^ b := one_le_pow₀ (by norm_num)
      nlinarith [pow_pos (by norm_num : (0 : ℝ) < 2) a]
    refine no3 (2 * b - a) hb0 ?_
    have h7 : (2 : ℝ) ^ (2 * b) = 2 ^ (2 * b - a) * 2 ^ a := by rw [← pow_add]; congr 1; omega
    rw [h7] at e
    exact mul_right_cancel₀ (by positivity) e
  · rintro ⟨h2, h3⟩
    have e := swap (3 / 4) (1 / 4) (by linarith) (by linarith)
    have hb0 : b ≠ 0 := by
      intro h; rw [h, pow_zero] at h3; norm_num at h3
    rw [div_pow, div_pow, one_pow, div_eq_div_iff (by positivity) (by positivity), one_mul,
      show (4 : ℝ) = 2 ^ 2 by norm_num, ← pow_mul, ← pow_mul] at e
    have hle : 2 * a ≤ 2 * b := by
      by_contra hlt
      have h5 : (2 : ℝ) ^ (2 * a) > 2 ^ (2 * b) := pow_lt_pow_right₀ (by norm_num) (by omega)
      have h6 : (1 : ℝ) ≤ 3 ^ b := one_le_pow₀ (by norm_num)
      nlinarith [pow_pos (by norm_num : (0 : ℝ) < 2) (2 * a)]
    refine no3 (2 * b - 2 * a) hb0 ?_
    have h7 : (2 : ℝ) ^ (2 * b) = 2 ^ (2 * b - 2 * a) * 2 ^ (2 * a) := by rw [← pow_add]; congr 1; omega
    rw [h7] at e
    exact mul_right_cancel₀ (by positivity) e
  · intro h2
    have e2 : r ^ a = 1 / 2 := by linarith
    have ha0 : a ≠ 0 := by
      intro h; rw [h, pow_zero] at e2; norm_num at e2
    have hr0' : 0 < r := by
      rcases hr0.lt_or_eq with h | h
      · exact h
      · rw [← h, zero_pow ha0] at e2; norm_num at e2
    have e4 : r ^ (2 * a) = 1 / 4 := by rw [mul_comm, pow_mul, e2]; norm_num
    have : (1 - r ^ b = 3 / 4) ↔ b = 2 * a := by
      rw [← (pow_right_strictAnti₀ hr0' hr1).injective.eq_iff (a := b), e4]
      constructor <;> intro h <;> linarith
    rw [this]
    omega

/-- **C152**: no Geometric distribution has three given values as quartiles. -/
theorem geometric_misses (p : ℝ) (h0 : 0 < p) (h1 : p ≤ 1) (q1 q2 q3 : ℝ) :
    ¬ LawQuartiles (ofNatPmf (geometricPmf p)) q1 q2 q3 :=
  fun h => (geometric_quartiles p h0 h1 q1 q2).1 ⟨h.1, h.2.1⟩

/-- **C152**: no Bernoulli distribution has. -/
theorem bernoulli_misses (p : ℝ) (h0 : 0 ≤ p) (h1 : p ≤ 1) (q1 q2 q3 : ℝ) : ¬ LawQuartiles (ofPmf (bernoulliPmf p)) q1 q2 q3 := by
  have hn : ∀ k, 0 ≤ bernoulliPmf p k := by
    intro k; unfold bernoulliPmf; split_ifs <;> linarith
  have key : ∀ x : ℝ, (ofPmf (bernoulliPmf p)).real (Iic x) = if x < 0 then 0 else if x < 1 then 1 - p else 1 := by
    intro x
    rw [upto hn 0 (fun k hk => by unfold bernoulliPmf; rw [if_neg (by omega), if_neg (by omega)])]
    split_ifs with h h'
    · rw [Finset.Icc_eq_empty]; · simp
      rw [not_le, Int.floor_lt]; exact_mod_cast h
    · have : ⌊x⌋ = 0 := Int.floor_eq_iff.2 ⟨by push_cast; linarith, by push_cast; linarith⟩
      rw [this]; simp [bernoulliPmf]
    · have h1 : 1 ≤ ⌊x⌋ := Int.le_floor.2 (by push_cast; linarith)
      rw [← Finset.sum_subset (s₁ := {0, 1})]
      · simp [bernoulliPmf]
      · intro k hk
        simp only [Finset.mem_insert, Finset.mem_singleton] at hk
        rw [Finset.mem_Icc]; omega
      · intro k _ hk
        simp only [Finset.mem_insert, Finset.mem_singleton, not_or] at hk
        unfold bernoulliPmf; rw [if_neg hk.2, if_neg hk.1]
  rintro ⟨a, b, -⟩
  rw [key] at a b
  split_ifs at a b <;> linarith

/-- **C152**: DiscreteUniform.  The three values (rounded down) must be equally spaced, and the ends are determined. -/
theorem discrete_uniform_quartiles (a b : ℤ) (h : a ≤ b) (q1 q2 q3 : ℝ) :
    LawQuartiles (ofPmf (discreteUniformPmf a b)) q1 q2 q3 ↔
      ⌊q2⌋ - ⌊q1⌋ = ⌊q3⌋ - ⌊q2⌋ ∧ ⌊q1⌋ < ⌊q2⌋ ∧ a = ⌊q1⌋ - (⌊q2⌋ - ⌊q1⌋) + 1 ∧ b = ⌊q3⌋ + (⌊q3⌋ - ⌊q2⌋) := by
  have hs : (0 : ℝ) < (b : ℝ) - a + 1 := DiscreteWide.size_pos h
  have key : ∀ (x : ℝ) (c : ℕ), 0 < c → c < 4 → ((ofPmf (discreteUniformPmf a b)).real (Iic x) = (c : ℝ) / 4 ↔
      4 * (⌊x⌋ - a + 1) = c * (b - a + 1)) := by
    intro x c h0 h4
    rw [upto (fun k => by unfold discreteUniformPmf; split_ifs; exacts [by positivity, le_rfl]) a
      (fun k hk => by unfold discreteUniformPmf; rw [if_neg (by omega)])]
    have e : ∑ k ∈ Finset.Icc a ⌊x⌋, discreteUniformPmf a b k = ((Finset.Icc a (min b ⌊x⌋)).card : ℝ) / ((b : ℝ) - a + 1) := by
      rw [← Finset.sum_subset (s₁ := Finset.Icc a (min b ⌊x⌋))]
      · rw [Finset.sum_congr rfl (g := fun _ => 1 / ((b : ℝ) - a + 1)), Finset.sum_const, nsmul_eq_mul, mul_one_div]
        intro k hk
        rw [Finset.mem_Icc] at hk
        unfold discreteUniformPmf
        rw [if_pos (by omega)]
      · intro k hk
        rw [Finset.mem_Icc] at hk ⊢; omega
      · intro k hk hk'
        rw [Finset.mem_Icc] at hk hk'
        unfold discreteUniformPmf
        rw [if_neg (by omega)]
    rw [e, div_eq_div_iff hs.ne' (by norm_num)]
    have hc : ((Finset.Icc a (min b ⌊x⌋)).card : ℤ) = max (min b ⌊x⌋ + 1 - a) 0 := by
      rw [Int.card_Icc, Int.toNat_eq_max]
    have : (((Finset.Icc a (min b ⌊x⌋)).card : ℝ) * 4 = (c : ℝ) * ((b : ℝ) - a + 1)) ↔
        ((Finset.Icc a (min b ⌊x⌋)).card : ℤ) * 4 = (c : ℤ) * (b - a + 1) := by
      rw [← Int.cast_inj (α := ℝ)]; push_cast; rfl
    rw [this, hc]
    interval_cases c <;> omega
  have k1 := key q1 1 (by norm_num) (by norm_num)
  have k2 := key q2 2 (by norm_num) (by norm_num)
  have k3 := key q3 3 (by norm_num) (by norm_num)
  rw [show ((1 : ℕ) : ℝ) / 4 = 1 / 4 by norm_num] at k1
  rw [show ((2 : ℕ) : ℝ) / 4 = 1 / 2 by norm_num] at k2
  rw [show ((3 : ℕ) : ℝ) / 4 = 3 / 4 by norm_num] at k3
  unfold LawQuartiles
  rw [k1, k2, k3]
  push_cast
  constructor
  · rintro ⟨a1, a2, a3⟩; omega
  · rintro ⟨a1, a2, a3, a4⟩; omega

/-- **C152**: the distribution function of DiscreteWeibull. -/
theorem discrete_weibull_below (q beta : ℝ) (h0 : 0 < q) (h1 : q < 1) (hb : 0 < beta) (n : ℕ) :
    (ofNatPmf (discreteWeibullPmf q beta)).real (Iic (n : ℝ)) = 1 - q ^ (((n : ℝ) + 1) ^ beta) := by
  rw [upto_nat (fun k => by
    unfold discreteWeibullPmf
    refine sub_nonneg.2 (Real.rpow_le_rpow_of_exponent_ge h0 h1.le (Real.rpow_le_rpow (by positivity) (by linarith) hb.le)))]
  have : (⌊(n : ℝ)⌋ + 1).toNat = n + 1 := by rw [Int.floor_natCast]; omega
  rw [this]
  clear this
  induction n with
  | zero => simp [discreteWeibullPmf, Real.zero_rpow hb.ne']
  | succ n ih =>
    rw [Finset.sum_range_succ, ih]
    unfold discreteWeibullPmf
    push_cast
    ring

/-- **C152**: DiscreteWeibull: one equation for three whole numbers, that of the quartiles of Weibull distributions for the
numbers plus one; then both parameters are determined. -/
theorem discrete_weibull_quartiles (q beta : ℝ) (h0 : 0 < q) (h1 : q < 1) (hb : 0 < beta) (n1 n2 n3 : ℕ) (h2 : n1 < n2)
    (h3 : n2 < n3) :
    LawQuartiles (ofNatPmf (discreteWeibullPmf q beta)) n1 n2 n3 ↔
      TwoFam.weibull.Shape (n1 + 1) (n2 + 1) (n3 + 1) ∧ beta = Real.log 2 / Real.log (((n3 : ℝ) + 1) / (n2 + 1)) ∧
        q = (1 / 2) ^ (1 / ((n2 : ℝ) + 1) ^ beta) := by
  unfold LawQuartiles
  simp only [discrete_weibull_below q beta h0 h1 hb, TwoFam.Shape]
  have y1 : (0 : ℝ) < (n1 : ℝ) + 1 := by positivity
  have y2 : (n1 : ℝ) + 1 < (n2 : ℝ) + 1 := by have : (n1 : ℝ) < n2 := by exact_mod_cast h2
                                              linarith
  have y3 : (n2 : ℝ) + 1 < (n3 : ℝ) + 1 := by have : (n2 : ℝ) < n3 := by exact_mod_cast h3
                                              linarith
  generalize (n1 : ℝ) + 1 = x at *
  generalize (n2 : ℝ) + 1 = y at *
  generalize (n3 : ℝ) + 1 = z at *
  have y0 : 0 < y := by linarith
  have z0 : 0 < z := by linarith
  have l2 : 0 < Real.log 2 := Real.log_pos (by norm_num)
  have l43 : 0 < Real.log (4 / 3) := Real.log_pos (by norm_num)
  have l4 : Real.log 4 = 2 * Real.log 2 := by
    rw [show (4 : ℝ) = 2 ^ 2 by norm_num, Real.log_pow]; norm_num
  have hL : 0 < -Real.log q := neg_pos.2 (Real.log_neg h0 h1)
  set L := -Real.log q with hLd
  have lev : ∀ t c : ℝ, 0 < t → 1 < c → (1 - q ^ (t ^ beta) = 1 - c⁻¹ ↔
      Real.log L + beta * Real.log t = Real.log (Real.log c)) := by
    intro t c ht hc
    have hc0 : 0 < c := by linarith
    have hlc : 0 < Real.log c := Real.log_pos hc
    have hp : 0 < t ^ beta := Real.rpow_pos_of_pos ht _
    rw [sub_right_inj, ← Real.log_injOn_pos.eq_iff (mem_Ioi.2 (Real.rpow_pos_of_pos h0 _)) (mem_Ioi.2 (inv_pos.2 hc0)),
      Real.log_rpow h0, Real.log_inv, ← Real.log_rpow ht, ← Real.log_mul hL.ne' hp.ne',
      Real.log_injOn_pos.eq_iff (mem_Ioi.2 (by positivity)) (mem_Ioi.2 hlc), hLd]
    constructor <;> intro h <;> linarith
  have hq : q = (1 / 2) ^ (1 / y ^ beta) ↔ Real.log L + beta * Real.log y = Real.log (Real.log 2) := by
    rw [← lev y 2 y0 (by norm_num), sub_right_inj]
    have hp : 0 < y ^ beta := Real.rpow_pos_of_pos y0 _
    constructor
    · intro h
      rw [h, ← Real.rpow_mul (by norm_num), one_div_mul_cancel hp.ne', Real.rpow_one]; norm_num
    · intro h
      rw [show (1 : ℝ) / 2 = 2⁻¹ by norm_num, ← h, ← Real.rpow_mul h0.le, mul_one_div_cancel hp.ne', Real.rpow_one]
  rw [hq, show (1 : ℝ) / 4 = 1 - (4 / 3)⁻¹ by norm_num, show (1 : ℝ) / 2 = 1 - 2⁻¹ by norm_num,
    show (3 : ℝ) / 4 = 1 - 4⁻¹ by norm_num, lev _ _ y1 (by norm_num), lev _ _ y0 (by norm_num),
    lev _ _ z0 (by norm_num), l4, Real.log_mul two_ne_zero l2.ne', Real.log_div y0.ne' y1.ne', Real.log_div z0.ne' y0.ne',
    Real.log_div l2.ne' l43.ne']
  have hd : 0 < Real.log z - Real.log y := sub_pos.2 (Real.log_lt_log y0 y3)
  rw [eq_div_iff hd.ne']
  generalize Real.log x = X at *
  generalize Real.log y = Y at *
  generalize Real.log z = Z at *
  generalize Real.log L = M at *
  generalize Real.log (Real.log (4 / 3)) = A at *
  generalize Real.log (Real.log 2) = B at *
  generalize Real.log 2 = C at *
  constructor
  · rintro ⟨a, b, c⟩
    have e1 : beta * (Z - Y) = C := by linarith
    have e2 : beta * (Y - X) = B - A := by linarith
    exact ⟨by rw [← e1, ← e2]; ring, e1, b⟩
  · rintro ⟨a, e1, b⟩
    refine ⟨?_, b, by linarith⟩
    have : (Y - X) * (beta * (Z - Y)) = (Z - Y) * (B - A) := by rw [e1]; exact a
    have e2 : beta * (Y - X) = B - A := mul_left_cancel₀ hd.ne' (by linarith)
    linarith

/-! ### quartile -/

private theorem geo_box (v : ℝ) : InBox [(((eps : ℝ) : EReal), ((1 : ℝ) : EReal))] [v] ↔ eps ≤ v ∧ v ≤ 1 := by
  unfold InBox
  constructor
  · intro h
    have := h.2 0 (by simp) (by simp)
    exact ⟨EReal.coe_le_coe_iff.1 this.1, EReal.coe_le_coe_iff.1 this.2⟩
  · intro h
    refine ⟨rfl, fun i hi _ => ?_⟩
    simp only [List.length_cons, List.length_nil] at hi
    interval_cases i
    exact ⟨EReal.coe_le_coe_iff.2 h.1, EReal.coe_le_coe_iff.2 h.2⟩

/-- **C152**: quartile for Geometric() and any three values, with an optimiser that finds the minimum: the distribution returned
has the smallest sum of squared differences, and misses at least one of the values. -/
theorem quartile_geometric (o o1 : Obj) (ho : construct (.simple .geometric) (fun _ => none) = .ok o)
    (cdf : List (Option ℝ) → ℝ → ℝ)
    (hcdf : ∀ p, 0 < p → p ≤ 1 → ∀ x, cdf [some p] x = (ofNatPmf (geometricPmf p)).real (Iic x))
    (q1 q2 q3 : ℝ) (opt : Optimiser) (G : List ℝ → Except Err (List ℝ))
    (hG : IsObjective (.simple .geometric) o.names o.attr (fun l => [cdf l q1 - 1 / 4, cdf l q2 - 1 / 2, cdf l q3 - 3 / 4]) G)
    (hfind : Finds opt G (startAt o o1) (freeBounds o [(((eps : ℝ) : EReal), ((1 : ℝ) : EReal))])) :
    Gives (optimizeQuartile opt (.simple .geometric) cdf q1 q2 q3 o.names [(((eps : ℝ) : EReal), ((1 : ℝ) : EReal))]
      (getFixedParams o).1 (getFixedParams o).2 o1) fun r =>
      ∃ p, eps ≤ p ∧ p ≤ 1 ∧ law (.simple .geometric) r.2 = [some p] ∧
        0 < quartileMiss (ofNatPmf (geometricPmf p)) q1 q2 q3 ∧
        ∀ p', eps ≤ p' → p' ≤ 1 →
          quartileMiss (ofNatPmf (geometricPmf p)) q1 q2 q3 ≤ quartileMiss (ofNatPmf (geometricPmf p')) q1 q2 q3 := by
  have hep : (0 : ℝ) < eps := by unfold eps; positivity
  have he : quartileResidual cdf q1 q2 q3 = fun l => [cdf l q1 - 1 / 4, cdf l q2 - 1 / 2, cdf l q3 - 3 / 4] := by
    funext l; unfold quartileResidual; norm_num
  have hsc : ScaledNames (.simple .geometric) o.names := by
    intro h; simp at h
  obtain ⟨x, o', e1, e2, ⟨kvs, d, e3, e4, e5, -⟩, e6⟩ := fit_best opt _ o o1 hsc _ _ G hG hfind
  simp [construct, parametrize, simpleParam, simpleFam, allNotNone, blank, Obj.setAll, Obj.set,
    Except.ok_bind', Except.pure_eq] at ho
  subst ho
  obtain ⟨k1, k2, k3⟩ := e3
  dsimp only at k1 k2 k3
  obtain ⟨p, rfl⟩ : ∃ p, kvs = [("p", p)] := by
    match kvs, k1 with
    | [(a, v)], h =>
      simp only [List.map_cons, List.map_nil, List.cons.injEq, and_true] at h
      subst h
      exact ⟨v, rfl⟩
  simp [Function.update] at k3
  subst k3
  have hfree := geo_box
  simp [construct, parametrize, simpleParam, simpleFam, simpleUpdate, List.lookup, allNotNone, blank,
    Obj.setAll, Obj.set, Except.ok_bind', Except.pure_eq] at e4
  subst e4
  simp [law, lawAttrs, Obj.setAll, Obj.set, Function.update] at e5
  simp [freeBounds, getFixedParams, splitStep, Function.update, List.zipIdx] at e2 e6
  have e2' := (hfree p).1 e2
  have hp0 : 0 < p := hep.trans_le e2'.1
  have hl : law (.simple .geometric) o' = [some p] := by simpa [law, lawAttrs] using e5
  have hcost : ∀ v, 0 < v → v ≤ 1 → cost [cdf [some v] q1 - 1 / 4, cdf [some v] q2 - 1 / 2, cdf [some v] q3 - 3 / 4] =
      quartileMiss (ofNatPmf (geometricPmf v)) q1 q2 q3 := by
    intro v h0 h1
    simp only [hcdf v h0 h1, cost, quartileMiss, List.map_cons, List.map_nil, List.sum_cons, List.sum_nil]
    ring
  refine ⟨(_, o'), by unfold optimizeQuartile; rw [he]; exact e1, p, e2'.1, e2'.2, hl, ?_, fun p' h0 h1 => ?_⟩
  · by_contra hn
    refine geometric_misses p hp0 e2'.2 q1 q2 q3 ?_
    unfold quartileMiss at hn
    set A := (ofNatPmf (geometricPmf p)).real (Iic q1)
    set B := (ofNatPmf (geometricPmf p)).real (Iic q2)
    set C := (ofNatPmf (geometricPmf p)).real (Iic q3)
    have a1 := sq_nonneg (A - 1 / 4)
    have a2 := sq_nonneg (B - 1 / 2)
    have a3 := sq_nonneg (C - 3 / 4)
    refine ⟨?_, ?_, ?_⟩
    · have := pow_eq_zero_iff (two_ne_zero) |>.1 (show (A - 1 / 4) ^ 2 = 0 by linarith); linarith
    · have := pow_eq_zero_iff (two_ne_zero) |>.1 (show (B - 1 / 2) ^ 2 = 0 by linarith); linarith
    · have := pow_eq_zero_iff (two_ne_zero) |>.1 (show (C - 3 / 4) ^ 2 = 0 by linarith); linarith
  · have := e6 _ ⟨fun k => if k = "p" then some p' else none, by
      simp [construct, parametrize, simpleParam, simpleFam, simpleUpdate, allNotNone]; rfl, by
        intro k
        simp only [List.mem_cons, List.not_mem_nil, or_false]
        split_ifs <;> simp_all, by
        intro k hk v hv
        simp [Function.update] at hv, by
        simpa [Function.update] using (hfree p').2 ⟨h0, h1⟩⟩
    rw [hl] at this
    simp only [law, lawAttrs, Obj.setAll, Obj.set, Function.update] at this
    simp at this
    rw [← hcost p hp0 e2'.2, ← hcost p' (hep.trans_le h0) h1]
    simpa using this

/-- **C152**: quartile for DiscreteUniform() and any three values, with an optimiser that finds the minimum.  If the values (rounded
down) are equally spaced, the distribution returned is the one that has them as quartiles; if not, it misses at least one of them
(in both cases: unless the search ends at bounds in the wrong order, where nothing is documented). -/
theorem quartile_discrete_uniform (o o1 : Obj) (ho : construct (.simple .discreteUniform) (fun _ => none) = .ok o)
    (cdf : List (Option ℝ) → ℝ → ℝ)
    (hcdf : ∀ a b : ℤ, a ≤ b → ∀ x, cdf [some (a : ℝ), some (b : ℝ)] x = (ofPmf (discreteUniformPmf a b)).real (Iic x))
    (q1 q2 q3 : ℝ) (opt : Optimiser) (G : List ℝ → Except Err (List ℝ))
    (hG : IsObjective (.simple .discreteUniform) o.names o.attr
      (fun l => [cdf l q1 - 1 / 4, cdf l q2 - 1 / 2, cdf l q3 - 3 / 4]) G)
    (hfind : Finds opt G (startAt o o1) (freeBounds o [(⊥, ⊤), (⊥, ⊤)])) :
    Gives (optimizeQuartile opt (.simple .discreteUniform) cdf q1 q2 q3 o.names [(⊥, ⊤), (⊥, ⊤)]
      (getFixedParams o).1 (getFixedParams o).2 o1) fun r =>
      ∃ a b : ℤ, law (.simple .discreteUniform) r.2 = [some (a : ℝ), some (b : ℝ)] ∧ (b < a ∨
        (⌊q2⌋ - ⌊q1⌋ = ⌊q3⌋ - ⌊q2⌋ ∧ ⌊q1⌋ < ⌊q2⌋ → a = ⌊q1⌋ - (⌊q2⌋ - ⌊q1⌋) + 1 ∧ b = ⌊q3⌋ + (⌊q3⌋ - ⌊q2⌋)) ∧
        (¬ (⌊q2⌋ - ⌊q1⌋ = ⌊q3⌋ - ⌊q2⌋ ∧ ⌊q1⌋ < ⌊q2⌋) → ¬ LawQuartiles (ofPmf (discreteUniformPmf a b)) q1 q2 q3)) := by
  have he : quartileResidual cdf q1 q2 q3 = fun l => [cdf l q1 - 1 / 4, cdf l q2 - 1 / 2, cdf l q3 - 3 / 4] := by
    funext l; unfold quartileResidual; norm_num
  have hsc : ScaledNames (.simple .discreteUniform) o.names := by
    intro h; simp at h
  obtain ⟨x, o', e1, e2, ⟨kvs, d, e3, e4, e5, -⟩, e6⟩ := fit_best opt _ o o1 hsc _ _ G hG hfind
  have hex := fun d => quartile_exact opt (.simple .discreteUniform) cdf q1 q2 q3 o o1 hsc _ G hG hfind d
  have hchoice : ∀ a b : ℤ, ∃ d, Choice (.simple .discreteUniform) o (freeBounds o [(⊥, ⊤), (⊥, ⊤)]) d ∧
      law (.simple .discreteUniform) d = [some (a : ℝ), some (b : ℝ)] := by
    intro a b
    simp [construct, parametrize, simpleParam, simpleFam, allNotNone, blank, Obj.setAll, Obj.set,
      Except.ok_bind', Except.pure_eq] at ho
    subst ho
    refine ⟨_, ⟨fun k => if k = "lower" then some (a : ℝ) else if k = "upper" then some (b : ℝ) else none, by
      simp [construct, parametrize, simpleParam, simpleFam, simpleUpdate, allNotNone]; rfl, ?_, ?_, ?_⟩, ?_⟩
    · intro k
      simp only [List.mem_cons, List.not_mem_nil, or_false]
      split_ifs <;> simp_all
    · intro k hk v hv
      simp only [List.mem_cons, List.not_mem_nil, or_false] at hk
      rcases hk with rfl | rfl <;> simp [Function.update] at hv
    · simp [freeBounds, getFixedParams, splitStep, Function.update, List.zipIdx, InBox]
      intro i hi
      interval_cases i <;> simp
    · simp [law, lawAttrs, Obj.setAll, Obj.set, Function.update]
  have hans : ∃ a b : ℤ, law (.simple .discreteUniform) o' = [some (a : ℝ), some (b : ℝ)] := by
    rw [e5]
    clear hex hchoice
    simp [construct, parametrize, simpleParam, simpleFam, allNotNone, blank, Obj.setAll, Obj.set,
      Except.ok_bind', Except.pure_eq] at ho
    subst ho
    obtain ⟨k1, k2, k3⟩ := e3
    dsimp only at k1 k2 k3
    obtain ⟨v, w, rfl⟩ : ∃ v w, kvs = [("lower", v), ("upper", w)] := by
      match kvs, k1 with
      | [(a', v), (c', w)], h =>
        simp only [List.map_cons, List.map_nil, List.cons.injEq, and_true] at h
        obtain ⟨rfl, rfl⟩ := h
        exact ⟨v, w, rfl⟩
    simp [construct, parametrize, simpleParam, simpleFam, simpleUpdate, List.lookup, allNotNone, blank,
      Obj.setAll, Obj.set, Except.ok_bind', Except.pure_eq] at e4
    subst e4
    exact ⟨⌊v⌋, ⌈w⌉, by simp [law, lawAttrs, Obj.setAll, Obj.set, Function.update]⟩
  obtain ⟨a, b, hl⟩ := hans
  refine ⟨(_, o'), by unfold optimizeQuartile; rw [he]; exact e1, a, b, hl, ?_⟩
  rcases lt_or_ge b a with hab | hab
  · exact .inl hab
  refine .inr ⟨fun hs => ?_, fun hs hq => hs ?_⟩
  · have hle : ⌊q1⌋ - (⌊q2⌋ - ⌊q1⌋) + 1 ≤ ⌊q3⌋ + (⌊q3⌋ - ⌊q2⌋) := by omega
    obtain ⟨d', hd', hl'⟩ := hchoice (⌊q1⌋ - (⌊q2⌋ - ⌊q1⌋) + 1) (⌊q3⌋ + (⌊q3⌋ - ⌊q2⌋))
    obtain ⟨c1, c2, c3⟩ := (discrete_uniform_quartiles _ _ hle q1 q2 q3).2 ⟨hs.1, hs.2, rfl, rfl⟩
    obtain ⟨r, hr, r1, r2, r3⟩ := hex d' hd' (by rw [hl', hcdf _ _ hle, c1]) (by rw [hl', hcdf _ _ hle, c2])
      (by rw [hl', hcdf _ _ hle, c3])
    have : r = (x, o') := by
      unfold optimizeQuartile at hr
      rw [he, e1] at hr
      simpa using hr.symm
    subst this
    dsimp only at r1 r2 r3
    rw [hl, hcdf _ _ hab] at r1 r2 r3
    exact ((discrete_uniform_quartiles a b hab q1 q2 q3).1 ⟨r1, r2, r3⟩).2.2
  · have := (discrete_uniform_quartiles a b hab q1 q2 q3).1 hq
    exact ⟨this.1, this.2.1⟩

/-! The hypotheses are met. -/

/-- the values 3, 5 and 7 are the quartiles of the integers from 2 to 9; 3, 5 and 8 are those of no DiscreteUniform -/
example : LawQuartiles (ofPmf (discreteUniformPmf 2 9)) 3 5 7 ∧
    ∀ a b : ℤ, a ≤ b → ¬ LawQuartiles (ofPmf (discreteUniformPmf a b)) 3 5 8 := by
  have f3 : ⌊(3 : ℝ)⌋ = 3 := by norm_num
  have f5 : ⌊(5 : ℝ)⌋ = 5 := by norm_num
  have f7 : ⌊(7 : ℝ)⌋ = 7 := by norm_num
  have f8 : ⌊(8 : ℝ)⌋ = 8 := by norm_num
  refine ⟨(discrete_uniform_quartiles 2 9 (by norm_num) 3 5 7).2 ?_, fun a b h => ?_⟩
  · rw [f3, f5, f7]; norm_num
  · rw [discrete_uniform_quartiles a b h, f3, f5, f8]; omega

/-- half of the probability of Geometric(1/2) is at 1, three quarters are up to 2 -/
example : (ofNatPmf (geometricPmf (1 / 2))).real (Iic 1) = 1 / 2 ∧ (ofNatPmf (geometricPmf (1 / 2))).real (Iic 2) = 3 / 4 := by
  rw [geometric_below _ (by norm_num) (by norm_num), geometric_below _ (by norm_num) (by norm_num)]
  rw [show ⌊(1 : ℝ)⌋.toNat = 1 by simp, show ⌊(2 : ℝ)⌋.toNat = 2 by rw [show ⌊(2 : ℝ)⌋ = 2 by norm_num]; rfl]
  norm_num

/-- DiscreteWeibull(1/2, 1): half of the probability is at 0, three quarters are up to 1 -/
example : (ofNatPmf (discreteWeibullPmf (1 / 2) 1)).real (Iic ((0 : ℕ) : ℝ)) = 1 / 2 ∧
    (ofNatPmf (discreteWeibullPmf (1 / 2) 1)).real (Iic ((1 : ℕ) : ℝ)) = 3 / 4 := by
  rw [discrete_weibull_below _ _ (by norm_num) (by norm_num) one_pos, discrete_weibull_below _ _ (by norm_num) (by norm_num) one_pos]
  norm_num

/-- a DiscreteUniform elicited from the quartiles 3, 5 and 7 -/
example : ∃ (o : Obj) (cdf : List (Option ℝ) → ℝ → ℝ) (opt : Optimiser) (G : List ℝ → Except Err (List ℝ)),
    construct (.simple .discreteUniform) (fun _ => none) = .ok o ∧
    (∀ a b : ℤ, a ≤ b → ∀ x, cdf [some (a : ℝ), some (b : ℝ)] x = (ofPmf (discreteUniformPmf a b)).real (Iic x)) ∧
    IsObjective (.simple .discreteUniform) o.names o.attr (fun l => [cdf l 3 - 1 / 4, cdf l 5 - 1 / 2, cdf l 7 - 3 / 4]) G ∧
    Finds opt G (startAt o o) (freeBounds o [(⊥, ⊤), (⊥, ⊤)]) := by
  obtain ⟨o, ho⟩ : ∃ o, construct (.simple .discreteUniform) (fun _ => none) = .ok o := ⟨_, rfl⟩
  have f3 : ⌊(3 : ℝ)⌋ = 3 := by norm_num
  have f5 : ⌊(5 : ℝ)⌋ = 5 := by norm_num
  have f7 : ⌊(7 : ℝ)⌋ = 7 := by norm_num
  obtain ⟨e1, e2, e3⟩ := (discrete_uniform_quartiles 2 9 (by norm_num) 3 5 7).2 (by rw [f3, f5, f7]; norm_num)
  set cdf : List (Option ℝ) → ℝ → ℝ := fun l x =>
    (ofPmf (discreteUniformPmf ⌊(l[0]?.join).getD 0⌋ ⌊(l[1]?.join).getD 0⌋)).real (Iic x) with hcdf
  set res : List (Option ℝ) → List ℝ := fun l => [cdf l 3 - 1 / 4, cdf l 5 - 1 / 2, cdf l 7 - 3 / 4] with hres
  set G : List ℝ → Except Err (List ℝ) := fun x => if x.length = 2 then
    .ok (res [some (⌊(x[0]?).getD 0⌋ : ℝ), some (⌈(x[1]?).getD 0⌉ : ℝ)]) else .error .valueError with hG
  refine ⟨o, cdf, fun _ _ => .ok (.ask [1, 1] fun _ => .stop [2, 9]), G, ho, fun a b _ x => ?_, ⟨?_, ?_⟩, ?_⟩
  · simp [hcdf]
  · intro cand kvs hk
    simp [construct, parametrize, simpleParam, simpleFam, allNotNone, blank, Obj.setAll, Obj.set] at ho
    subst ho
    obtain ⟨k1, k2, k3⟩ := hk
    match kvs, k1, k2, k3 with
    | [(a, m), (b, n)], k1, k2, k3 =>
      simp only [List.map_cons, List.map_nil, List.cons.injEq, and_true] at k1
      obtain ⟨rfl, rfl⟩ := k1
      simp [Function.update] at k3
      subst k3
      simp [hG, construct, parametrize, simpleParam, simpleFam, simpleUpdate, allNotNone, blank, Obj.setAll, Obj.set,
        List.lookup, Except.map, law, lawAttrs, Function.update, hres]
  · intro cand hc
    simp [construct, parametrize, simpleParam, simpleFam, allNotNone, blank, Obj.setAll, Obj.set] at ho
    subst ho
    simp [Function.update] at hc
    simp [hG, hc]
  · have hin : InBox (freeBounds o [(⊥, ⊤), (⊥, ⊤)]) [2, 9] := by
      simp [construct, parametrize, simpleParam, simpleFam, allNotNone, blank, Obj.setAll, Obj.set] at ho
      subst ho
      simp [freeBounds, getFixedParams, splitStep, Function.update, List.zipIdx, InBox]
      intro i hi
      interval_cases i <;> simp
    have hzero : res [some 2, some 9] = [0, 0, 0] := by
      simp only [hres, hcdf, List.getElem?_cons_zero, List.getElem?_cons_succ, Option.join_some, Option.getD_some]
      have g2 : ⌊(2 : ℝ)⌋ = 2 := by norm_num
      have g9 : ⌊(9 : ℝ)⌋ = 9 := by norm_num
      rw [g2, g9, e1, e2, e3]
      norm_num
    refine ⟨_, rfl, [2, 9], [0, 0, 0], by simp [answer, hG], hin, ?_, ?_⟩
    · rw [← hzero]; simp [hG]
    · intro y _ r' _
      have : 0 ≤ cost r' := List.sum_nonneg (by
        intro a ha
        obtain ⟨b, -, rfl⟩ := List.mem_map.1 ha
        positivity)
      simpa [cost] using this

/-- a Geometric elicited from the quartiles 1, 2 and 3: there is a best probability -/
example : ∃ (o : Obj) (cdf : List (Option ℝ) → ℝ → ℝ) (opt : Optimiser) (G : List ℝ → Except Err (List ℝ)),
    construct (.simple .geometric) (fun _ => none) = .ok o ∧
    (∀ p, 0 < p → p ≤ 1 → ∀ x, cdf [some p] x = (ofNatPmf (geometricPmf p)).real (Iic x)) ∧
    IsObjective (.simple .geometric) o.names o.attr (fun l => [cdf l 1 - 1 / 4, cdf l 2 - 1 / 2, cdf l 3 - 3 / 4]) G ∧
    Finds opt G (startAt o o) (freeBounds o [(((eps : ℝ) : EReal), ((1 : ℝ) : EReal))]) := by
  obtain ⟨o, ho⟩ : ∃ o, construct (.simple .geometric) (fun _ => none) = .ok o := ⟨_, rfl⟩
  set cdf : List (Option ℝ) → ℝ → ℝ := fun l x => 1 - (1 - (l[0]?.join).getD 0) ^ ⌊x⌋.toNat with hcdf
  set res : List (Option ℝ) → List ℝ := fun l => [cdf l 1 - 1 / 4, cdf l 2 - 1 / 2, cdf l 3 - 3 / 4] with hres
  have he : eps ≤ 1 := by unfold eps; norm_num
  obtain ⟨p, hp, hmin⟩ := isCompact_Icc.exists_isMinOn (f := fun p => cost (res [some p])) (nonempty_Icc.2 he)
    (Continuous.continuousOn (by simp only [hres, hcdf, cost]; simp; fun_prop))
  set G : List ℝ → Except Err (List ℝ) := fun x => if x.length = 1 then
    .ok (res (x.map some)) else .error .valueError with hG
  refine ⟨o, cdf, fun _ _ => .ok (.ask [1] fun _ => .stop [p]), G, ho, fun v h0 h1 x => ?_, ⟨?_, ?_⟩, ?_⟩
  · rw [geometric_below v h0 h1]; simp [hcdf]
  · intro cand kvs hk
    simp [construct, parametrize, simpleParam, simpleFam, allNotNone, blank, Obj.setAll, Obj.set] at ho
    subst ho
    obtain ⟨k1, k2, k3⟩ := hk
    match kvs, k1, k2, k3 with
    | [(a, m)], k1, k2, k3 =>
      simp only [List.map_cons, List.map_nil, List.cons.injEq, and_true] at k1
      subst k1
      simp [Function.update] at k3
      subst k3
      simp [hG, construct, parametrize, simpleParam, simpleFam, simpleUpdate, allNotNone, blank, Obj.setAll, Obj.set,
        List.lookup, Except.map, law, lawAttrs, Function.update, hres]
  · intro cand hc
    simp [construct, parametrize, simpleParam, simpleFam, allNotNone, blank, Obj.setAll, Obj.set] at ho
    subst ho
    simp [Function.update] at hc
    simp [hG, hc]
  · have hbox : freeBounds o [(((eps : ℝ) : EReal), ((1 : ℝ) : EReal))] = [(((eps : ℝ) : EReal), ((1 : ℝ) : EReal))] := by
      simp [construct, parametrize, simpleParam, simpleFam, allNotNone, blank, Obj.setAll, Obj.set] at ho
      subst ho
      simp [freeBounds, getFixedParams, splitStep, Function.update, List.zipIdx]
    rw [hbox]
    refine ⟨_, rfl, [p], res [some p], by simp [answer, hG], (geo_box p).2 hp, by simp [hG], fun y hy r' hr => ?_⟩
    · obtain ⟨w, rfl⟩ := List.length_eq_one_iff.1 (by simpa using hy.1)
      simp [hG] at hr
      rw [← hr]
      exact hmin ((geo_box w).1 hy)

end Verif.Props
