import Verif.Spec.CountOne
import Verif.Lemmas.LawBase
import Verif.Lemmas.LawDiscrete
import Mathlib.Analysis.Normed.Ring.InfiniteSum
import Mathlib.Analysis.Calculus.Deriv.MeanValue
import Mathlib.Analysis.SpecialFunctions.Exp
import Mathlib.Analysis.SpecialFunctions.Exponential
import Mathlib.Analysis.SpecialFunctions.Pow.Deriv

/-!
# Probabilities and entropies of counts
-/

namespace Verif.CountOne
open MeasureTheory Verif.Spec Verif.Law Set Filter Topology

theorem countMass_eq {f : ℕ → ℝ} (h0 : ∀ k, 0 ≤ f k) (l u : ℕ) : countMass f l u = ∑ k ∈ Finset.Icc l u, f k := by
  unfold countMass ofNatPmf ofPmf Measure.real
  rw [Measure.sum_apply _ measurableSet_Icc]
  have e : ∀ k : ℤ, (ENNReal.ofReal (if k < 0 then 0 else f k.toNat) • Measure.dirac (k : ℝ)) (Icc (l : ℝ) u) =
      if (l : ℤ) ≤ k ∧ k ≤ u then ENNReal.ofReal (f k.toNat) else 0 := by
    intro k
    rw [Measure.smul_apply, Measure.dirac_apply' _ measurableSet_Icc, smul_eq_mul]
    by_cases hk : (l : ℤ) ≤ k ∧ k ≤ u
    · have h1 : (k : ℝ) ∈ Icc (l : ℝ) u := ⟨by exact_mod_cast hk.1, by exact_mod_cast hk.2⟩
      rw [if_pos hk, indicator_of_mem h1, if_neg (by omega)]
      simp
    · have h1 : (k : ℝ) ∉ Icc (l : ℝ) u := fun h => hk ⟨by exact_mod_cast h.1, by exact_mod_cast h.2⟩
      rw [if_neg hk, indicator_of_notMem h1, mul_zero]
  simp only [e]
  rw [tsum_eq_sum (s := (Finset.Icc l u).image fun k : ℕ => (k : ℤ))]
  · rw [Finset.sum_image (fun a _ b _ h => by exact_mod_cast h), ENNReal.toReal_sum]
    · refine Finset.sum_congr rfl fun k hk => ?_
      rw [Finset.mem_Icc] at hk
      rw [if_pos ⟨by exact_mod_cast hk.1, by exact_mod_cast hk.2⟩, Int.toNat_natCast, ENNReal.toReal_ofReal (h0 k)]
    · intro k _
      split_ifs <;> simp
  · intro k hk
    rw [if_neg]
    rintro ⟨h1, h2⟩
    refine hk (Finset.mem_image.2 ⟨k.toNat, ?_, ?_⟩)
    · rw [Finset.mem_Icc]; omega
    · simp; omega

/-! ### A function with one peak -/

/-- a function that rises from zero and falls back to zero takes every value below its peak exactly twice -/
theorem twice {M : ℝ → ℝ} (hc : ContinuousOn M (Ici 0)) (h0 : M 0 = 0) (hl : Tendsto M atTop (𝓝 0)) {x₀ : ℝ} (hx : 0 < x₀)
    (hm : StrictMonoOn M (Icc 0 x₀)) (ha : StrictAntiOn M (Ici x₀)) {p : ℝ} (hp : 0 < p) (ht : p < M x₀) :
    ∃ a b, 0 < a ∧ a < x₀ ∧ x₀ < b ∧ ∀ s, 0 < s → (M s = p ↔ s = a ∨ s = b) := by
  obtain ⟨x, hx', ex⟩ := intermediate_value_Icc hx.le (hc.mono Icc_subset_Ici_self) (show p ∈ _ from ⟨by rw [h0]; exact hp.le, ht.le⟩)
  have hx1 : 0 < x := by
    rcases hx'.1.lt_or_eq with h' | h'
    · exact h'
    · subst h'; rw [h0] at ex; linarith
  have hx2 : x < x₀ := by
    rcases hx'.2.lt_or_eq with h' | h'
    · exact h'
    · subst h'; linarith
  obtain ⟨z, hz⟩ := ((hl.eventually (gt_mem_nhds hp)).and (Filter.eventually_gt_atTop x₀)).exists
  obtain ⟨y, hy, ey⟩ := intermediate_value_Icc' hz.2.le (hc.mono fun t ht => hx.le.trans ht.1) (show p ∈ _ from
    ⟨hz.1.le, ht.le⟩)
  have hy1 : x₀ < y := by
    rcases hy.1.lt_or_eq with h' | h'
    · exact h'
    · rw [← h'] at ey; linarith
  refine ⟨x, y, hx1, hx2, hy1, fun s hs => ⟨fun e => ?_, ?_⟩⟩
  · rcases le_total s x₀ with h | h
    · exact .inl (hm.injOn ⟨hs.le, h⟩ hx' (e.trans ex.symm))
    · exact .inr (ha.injOn h hy.1 (e.trans ey.symm))
  · rintro (rfl | rfl)
    · exact ex
    · exact ey

/-! ### Poisson -/

theorem poisson_pos {m : ℝ} (hm : 0 < m) (k : ℕ) : 0 < poissonPmf m k := by unfold poissonPmf; positivity

/-- probability below `n` -/
noncomputable def below (n : ℕ) (m : ℝ) : ℝ := ∑ k ∈ Finset.range n, poissonPmf m k

theorem pmf_deriv (m : ℝ) (k : ℕ) :
    HasDerivAt (fun m => poissonPmf m k) ((if k = 0 then 0 else poissonPmf m (k - 1)) - poissonPmf m k) m := by
  unfold poissonPmf
  have h1 : HasDerivAt (fun m : ℝ => Real.exp (-m)) (-Real.exp (-m)) m := by
    have := (hasDerivAt_neg m).exp
    rwa [mul_neg_one] at this
  have h := (h1.mul (hasDerivAt_pow k m)).div_const (k.factorial : ℝ)
  refine h.congr_deriv ?_
  cases k with
  | zero => simp
  | succ k =>
    simp only [Nat.add_sub_cancel, Nat.factorial_succ, if_neg (Nat.succ_ne_zero k)]
    push_cast
    have : (k.factorial : ℝ) ≠ 0 := by positivity
    have : (k : ℝ) + 1 ≠ 0 := by positivity
    field_simp
    ring

theorem below_deriv (m : ℝ) (n : ℕ) : HasDerivAt (below (n + 1)) (-poissonPmf m n) m := by
  have h : HasDerivAt (fun m => ∑ k ∈ Finset.range (n + 1), poissonPmf m k)
      (∑ k ∈ Finset.range (n + 1), ((if k = 0 then 0 else poissonPmf m (k - 1)) - poissonPmf m k)) m :=
    HasDerivAt.fun_sum fun k _ => pmf_deriv m k
  refine h.congr_deriv ?_
  have : ∀ n : ℕ, ∑ k ∈ Finset.range (n + 1), ((if k = 0 then 0 else poissonPmf m (k - 1)) - poissonPmf m k) = -poissonPmf m n := by
    intro n
    induction n with
    | zero => simp
    | succ n ih =>
      rw [Finset.sum_range_succ, ih]
      simp
      ring
  exact this n

theorem below_zero (n : ℕ) : below (n + 1) 0 = 1 := by
  unfold below poissonPmf
  rw [Finset.sum_eq_single 0]
  · simp
  · intro k _ hk
    simp [hk]
  · simp

theorem below_lim (n : ℕ) : Tendsto (below n) atTop (𝓝 0) := by
  unfold below
  have : Tendsto (fun m : ℝ => ∑ k ∈ Finset.range n, poissonPmf m k) atTop (𝓝 (∑ k ∈ Finset.range n, (0 : ℝ))) := by
    refine tendsto_finsetSum _ fun k _ => ?_
    have h := (Real.tendsto_pow_mul_exp_neg_atTop_nhds_zero k).div_const (k.factorial : ℝ)
    rw [zero_div] at h
    refine h.congr fun m => ?_
    unfold poissonPmf
    ring
  simpa using this

theorem below_cont (n : ℕ) : Continuous (below n) := by
  unfold below poissonPmf
  fun_prop

theorem poisson_mass {m : ℝ} (hm : 0 < m) {l u : ℕ} (h : l ≤ u) :
    countMass (poissonPmf m) l u = below (u + 1) m - below l m := by
  rw [countMass_eq fun k => (poisson_pos hm k).le]
  unfold below
  rw [← Finset.sum_Ico_eq_sub _ (by omega)]
  rfl

/-! ### Entropy of a sum -/

theorem negLog_conv {ι : Type} (s : Finset ι) (w a : ι → ℝ) (hw : ∀ i ∈ s, 0 ≤ w i) (ha : ∀ i ∈ s, 0 ≤ a i)
    (hc : 0 < ∑ i ∈ s, w i * a i) :
    ∑ i ∈ s, w i * Real.negMulLog (a i) ≤
      Real.negMulLog (∑ i ∈ s, w i * a i) - (1 - ∑ i ∈ s, w i) * ∑ i ∈ s, w i * a i := by
  set c := ∑ i ∈ s, w i * a i with hcd
  have key : ∀ i ∈ s, w i * Real.negMulLog (a i) ≤ -(Real.log c) * (w i * a i) + (c * w i - w i * a i) := by
    intro i hi
    rcases (ha i hi).lt_or_eq with h | h
    · have h1 := Real.log_le_sub_one_of_pos (show 0 < c / a i by positivity)
      rw [Real.log_div hc.ne' h.ne'] at h1
      have h2 : a i * (Real.log c - Real.log (a i)) ≤ c - a i := by
        have := mul_le_mul_of_nonneg_left h1 h.le
        rwa [mul_sub (a i) (c / a i), mul_div_cancel₀ _ h.ne', mul_one] at this
      have h3 := mul_le_mul_of_nonneg_left h2 (hw i hi)
      unfold Real.negMulLog
      linarith
    · rw [← h]
      simp only [Real.negMulLog_zero, mul_zero, sub_zero, zero_add]
      exact mul_nonneg hc.le (hw i hi)
  refine (Finset.sum_le_sum key).trans (le_of_eq ?_)
  rw [Finset.sum_add_distrib, Finset.sum_sub_distrib, ← Finset.mul_sum, ← Finset.mul_sum, ← hcd]
  unfold Real.negMulLog
  ring

theorem entropy_conv {w a c : ℕ → ℝ} (hw : ∀ k, 0 < w k) (ha : ∀ k, 0 < a k) (ha1 : ∀ k, a k ≤ 1) (sw : HasSum w 1)
    (sa : Summable fun k => Real.negMulLog (a k)) (sc : Summable fun k => Real.negMulLog (c k))
    (h : ∀ n, c n = ∑ ij ∈ Finset.antidiagonal n, w ij.1 * a ij.2) :
    ∑' k, Real.negMulLog (a k) < ∑' k, Real.negMulLog (c k) := by
  have na : ∀ k, 0 ≤ Real.negMulLog (a k) := fun k => Real.negMulLog_nonneg (ha k).le (ha1 k)
  have nw : Summable fun k => ‖w k‖ := by
    refine sw.summable.congr fun k => ?_
    rw [Real.norm_of_nonneg (hw k).le]
  have na' : Summable fun k => ‖Real.negMulLog (a k)‖ := by
    refine sa.congr fun k => ?_
    rw [Real.norm_of_nonneg (na k)]
  have hprod := tsum_mul_tsum_eq_tsum_sum_antidiagonal_of_summable_norm nw na'
  rw [sw.tsum_eq, one_mul] at hprod
  rw [hprod]
  have hsum := (summable_norm_sum_mul_antidiagonal_of_summable_norm nw na').of_norm
  have cpos : ∀ n, 0 < c n := by
    intro n
    rw [h]
    exact Finset.sum_pos (fun ij _ => mul_pos (hw _) (ha _)) ⟨(0, n), by simp⟩
  have hle : ∀ n, ∑ ij ∈ Finset.antidiagonal n, w ij.1 * Real.negMulLog (a ij.2) ≤
      Real.negMulLog (c n) - (1 - ∑ ij ∈ Finset.antidiagonal n, w ij.1) * c n := by
    intro n
    rw [h n]
    exact negLog_conv _ (fun ij : ℕ × ℕ => w ij.1) (fun ij => a ij.2) (fun ij _ => (hw _).le) (fun ij _ => (ha _).le)
      (by rw [← h n]; exact cpos n)
  have hW : ∀ n, ∑ ij ∈ Finset.antidiagonal n, w ij.1 = ∑ k ∈ Finset.range (n + 1), w k := fun n =>
    Finset.Nat.sum_antidiagonal_eq_sum_range_succ_mk (fun ij => w ij.1) n
  have hW1 : ∀ n, ∑ k ∈ Finset.range (n + 1), w k < 1 := by
    intro n
    have h1 := sw.summable.sum_le_tsum (Finset.range (n + 2)) fun k _ => (hw k).le
    rw [sw.tsum_eq, Finset.sum_range_succ] at h1
    linarith [hw (n + 1)]
  have hlt : ∀ n, ∑ ij ∈ Finset.antidiagonal n, w ij.1 * Real.negMulLog (a ij.2) < Real.negMulLog (c n) := by
    intro n
    refine (hle n).trans_lt ?_
    rw [hW]
    have := mul_pos (sub_pos.2 (hW1 n)) (cpos n)
    linarith
  exact Summable.tsum_lt_tsum (fun n => (hlt n).le) (hlt 0) hsum sc

theorem poisson_sum {m : ℝ} (hm : 0 < m) : HasSum (poissonPmf m) 1 := by
  have := ProbabilityTheory.hasSum_one_poissonMeasure ⟨m, hm.le⟩
  exact sum_cast this (fun k => rfl) rfl

theorem poisson_add {m d : ℝ} (n : ℕ) :
    poissonPmf (d + m) n = ∑ ij ∈ Finset.antidiagonal n, poissonPmf d ij.1 * poissonPmf m ij.2 := by
  unfold poissonPmf
  rw [(Commute.all d m).add_pow', Finset.mul_sum, Finset.sum_div]
  refine Finset.sum_congr rfl fun ij hij => ?_
  rw [Finset.mem_antidiagonal] at hij
  have h1 : (n.choose ij.1 : ℝ) = n.factorial / (ij.1.factorial * ij.2.factorial) := by
    rw [← hij]
    exact Nat.cast_add_choose ℝ
  rw [nsmul_eq_mul, h1, neg_add, Real.exp_add]
  have : (n.factorial : ℝ) ≠ 0 := by positivity
  field_simp

theorem poisson_entropy_summable {m : ℝ} (hm : 0 < m) : Summable fun k => Real.negMulLog (poissonPmf m k) := by
  have le1 : ∀ k, poissonPmf m k ≤ 1 := fun k => by
    have := (poisson_sum hm).summable.sum_le_tsum {k} fun k _ => (poisson_pos hm k).le
    rwa [Finset.sum_singleton, (poisson_sum hm).tsum_eq] at this
  have lf : ∀ k : ℕ, Real.log k.factorial ≤ 4 * 2 ^ k := by
    intro k
    have h1 : Real.log k.factorial ≤ k * k := by
      have h2 : (k.factorial : ℝ) ≤ (k : ℝ) ^ k := by exact_mod_cast Nat.factorial_le_pow k
      refine (Real.log_le_log (by positivity) h2).trans ?_
      rw [Real.log_pow]
      rcases Nat.eq_zero_or_pos k with h | h
      · simp [h]
      · exact mul_le_mul_of_nonneg_left ((Real.log_le_sub_one_of_pos (by exact_mod_cast h)).trans (by linarith)) (by positivity)
    have h2 : k * k ≤ 4 * 2 ^ k := by
      induction k with
      | zero => simp
      | succ k ih =>
        have h3 : k < 2 ^ k := Nat.lt_two_pow_self
        have ih' := ih (by
          have h2 : (k.factorial : ℝ) ≤ (k : ℝ) ^ k := by exact_mod_cast Nat.factorial_le_pow k
          refine (Real.log_le_log (by positivity) h2).trans ?_
          rw [Real.log_pow]
          rcases Nat.eq_zero_or_pos k with h | h
          · simp [h]
          · exact mul_le_mul_of_nonneg_left ((Real.log_le_sub_one_of_pos (by exact_mod_cast h)).trans (by linarith))
              (by positivity))
        rw [pow_succ]
        nlinarith
    refine h1.trans ?_
    exact_mod_cast h2
  have big : Summable fun k : ℕ => (m + |Real.log m| + 4) * ((2 * m) ^ k / k.factorial) :=
    (Real.summable_pow_div_factorial (2 * m)).mul_left _
  refine Summable.of_nonneg_of_le (fun k => Real.negMulLog_nonneg (poisson_pos hm k).le (le1 k)) (fun k => ?_) big
  have e : Real.negMulLog (poissonPmf m k) = poissonPmf m k * (m - k * Real.log m + Real.log k.factorial) := by
    unfold Real.negMulLog
    have : Real.log (poissonPmf m k) = -m + k * Real.log m - Real.log k.factorial := by
      unfold poissonPmf
      rw [Real.log_div (by positivity) (by positivity), Real.log_mul (by positivity) (by positivity), Real.log_exp, Real.log_pow]
    rw [this]; ring
  have two : (1 : ℝ) ≤ 2 ^ k := one_le_pow₀ (by norm_num)
  have kk : (k : ℝ) ≤ 2 ^ k := by exact_mod_cast (Nat.lt_two_pow_self (n := k)).le
  have b1 : m - k * Real.log m + Real.log k.factorial ≤ (m + |Real.log m| + 4) * 2 ^ k := by
    have h1 : -(k * Real.log m) ≤ 2 ^ k * |Real.log m| := by
      calc -(k * Real.log m) = k * (-Real.log m) := by ring
        _ ≤ k * |Real.log m| := mul_le_mul_of_nonneg_left (neg_le_abs _) (by positivity)
        _ ≤ 2 ^ k * |Real.log m| := mul_le_mul_of_nonneg_right kk (abs_nonneg _)
    have h2 : m ≤ m * 2 ^ k := le_mul_of_one_le_right hm.le two
    have h3 := lf k
    linarith
  rw [e]
  refine (mul_le_mul_of_nonneg_left b1 (poisson_pos hm k).le).trans ?_
  have e2 : poissonPmf m k * ((m + |Real.log m| + 4) * 2 ^ k) =
      Real.exp (-m) * ((m + |Real.log m| + 4) * ((2 * m) ^ k / k.factorial)) := by
    unfold poissonPmf
    rw [mul_pow]; ring
  rw [e2]
  refine mul_le_of_le_one_left (by positivity) (Real.exp_le_one_iff.2 (by linarith))

/-- the entropy of the Poisson distribution grows with the mean -/
theorem poisson_entropy {m m' : ℝ} (hm : 0 < m) (h : m < m') : entropyPmf (poissonPmf m) < entropyPmf (poissonPmf m') := by
  have hd : 0 < m' - m := sub_pos.2 h
  have le1 : ∀ k, poissonPmf m k ≤ 1 := fun k => by
    have := (poisson_sum hm).summable.sum_le_tsum {k} fun k _ => (poisson_pos hm k).le
    rwa [Finset.sum_singleton, (poisson_sum hm).tsum_eq] at this
  have := entropy_conv (w := poissonPmf (m' - m)) (a := poissonPmf m) (c := poissonPmf m') (poisson_pos hd) (poisson_pos hm) le1
    (poisson_sum hd) (poisson_entropy_summable hm) (poisson_entropy_summable (hm.trans h)) fun n => by
      rw [← poisson_add, sub_add_cancel]
  unfold entropyPmf
  simpa only [Real.negMulLog, neg_mul] using this

/-! ### Geometric -/

theorem geo_nonneg {p : ℝ} (h0 : 0 < p) (h1 : p ≤ 1) (k : ℕ) : 0 ≤ geometricPmf p k := by
  unfold geometricPmf
  have : 0 ≤ 1 - p := by linarith
  split_ifs <;> positivity

theorem geo_mass {p : ℝ} (h0 : 0 < p) (h1 : p ≤ 1) {l u : ℕ} (hl : 1 ≤ l) (h : l ≤ u) :
    countMass (geometricPmf p) l u = (1 - p) ^ (l - 1) - (1 - p) ^ u := by
  rw [countMass_eq (geo_nonneg h0 h1)]
  induction u, h using Nat.le_induction with
  | base =>
    rw [Finset.Icc_self, Finset.sum_singleton]
    obtain ⟨l, rfl⟩ := Nat.exists_eq_succ_of_ne_zero (by omega : l ≠ 0)
    simp [geometricPmf, pow_succ]
    ring
  | succ u hu ih =>
    rw [Finset.sum_Icc_succ_top (by omega), ih]
    simp [geometricPmf, pow_succ]
    ring

theorem geo_entropy_eq {p : ℝ} (h0 : 0 < p) (h1 : p < 1) :
    entropyPmf (geometricPmf p) = -Real.log p - (1 - p) / p * Real.log (1 - p) := by
  have hr : ‖1 - p‖ < 1 := by rw [Real.norm_eq_abs, abs_lt]; constructor <;> linarith
  have hq : 0 < 1 - p := by linarith
  have g0 : HasSum (fun n : ℕ => (1 - p) ^ n) (1 / p) := by
    have := hasSum_geometric_of_norm_lt_one hr
    simpa using this
  have g1 : HasSum (fun n : ℕ => (n : ℝ) * (1 - p) ^ n) ((1 - p) / p ^ 2) := by
    have := hasSum_coe_mul_geometric_of_norm_lt_one hr
    simpa using this
  have s : HasSum (fun k => -(geometricPmf p k * Real.log (geometricPmf p k))) (-Real.log p - (1 - p) / p * Real.log (1 - p)) := by
    rw [← hasSum_nat_add_iff' 1]
    refine sum_cast ((g0.mul_left (-p * Real.log p)).add (g1.mul_left (-p * Real.log (1 - p)))) (fun k => ?_) ?_
    · have : geometricPmf p (k + 1) = p * (1 - p) ^ k := by simp [geometricPmf]
      rw [this, Real.log_mul h0.ne' (by positivity), Real.log_pow]
      ring
    · simp [geometricPmf]
      field_simp
      ring
  exact s.tsum_eq

theorem geo_entropy_one : entropyPmf (geometricPmf 1) = 0 := by
  unfold entropyPmf
  have : ∀ k, geometricPmf 1 k = 0 ∨ geometricPmf 1 k = 1 := by
    intro k
    unfold geometricPmf
    rcases k with _ | _ | k <;> simp
  have e : ∀ k, -(geometricPmf 1 k * Real.log (geometricPmf 1 k)) = 0 := by
    intro k
    rcases this k with h | h <;> simp [h]
  simp [e]

/-- the entropy of the geometric distribution falls with the probability -/
theorem geo_entropy {p p' : ℝ} (h0 : 0 < p) (h : p < p') (h1 : p' ≤ 1) :
    entropyPmf (geometricPmf p') < entropyPmf (geometricPmf p) := by
  rcases h1.lt_or_eq with h1 | rfl
  · rw [geo_entropy_eq h0 (h.trans h1), geo_entropy_eq (h0.trans h) h1]
    have anti : StrictAntiOn (fun p : ℝ => -Real.log p - (1 - p) / p * Real.log (1 - p)) (Ioo 0 1) := by
      have hd : ∀ x ∈ Ioo (0 : ℝ) 1, HasDerivAt (fun p : ℝ => -Real.log p - (1 - p) / p * Real.log (1 - p))
          (Real.log (1 - x) / x ^ 2) x := by
        intro x hx
        have x0 : x ≠ 0 := hx.1.ne'
        have x1 : 1 - x ≠ 0 := by linarith [hx.2]
        have d1 : HasDerivAt (fun p : ℝ => 1 - p) (-1) x := by simpa using (hasDerivAt_id x).const_sub 1
        have d2 := d1.div (hasDerivAt_id x) x0
        have d3 : HasDerivAt (fun p : ℝ => Real.log (1 - p)) (-1 / (1 - x)) x := d1.log x1
        have d4 := (Real.hasDerivAt_log x0).neg.sub (d2.mul d3)
        refine d4.congr_deriv ?_
        simp only [id_eq, Pi.div_apply]
        field_simp
        ring
      refine strictAntiOn_of_deriv_neg (convex_Ioo _ _) (fun x hx => (hd x hx).continuousAt.continuousWithinAt) fun x hx => ?_
      rw [interior_Ioo] at hx
      rw [(hd x hx).deriv]
      exact div_neg_of_neg_of_pos (Real.log_neg (by linarith [hx.2]) (by linarith [hx.1])) (by have := hx.1; positivity)
    exact anti ⟨h0, h.trans h1⟩ ⟨h0.trans h, h1⟩ h
  · rw [geo_entropy_one, geo_entropy_eq h0 h]
    have l1 := Real.log_neg h0 h
    have l2 := Real.log_neg (show 0 < 1 - p by linarith) (by linarith)
    have : 0 < (1 - p) / p := div_pos (by linarith) h0
    nlinarith

end Verif.CountOne
