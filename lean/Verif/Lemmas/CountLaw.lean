import Verif.Spec.CountLaw
import Verif.Lemmas.LawBase
import Verif.Lemmas.LawDiscrete
import Verif.Lemmas.LawGamma
import Verif.Lemmas.LawLaplace
import Mathlib.RingTheory.Polynomial.Bernstein
import Mathlib.Data.Nat.Choose.Vandermonde
import Mathlib.MeasureTheory.Integral.DominatedConvergence
import Mathlib.Analysis.PSeries

/-!
# Sums of the documented mass functions (C134)
-/

namespace Verif.Law
open MeasureTheory Verif.Spec Filter Topology Set

/-- mass one, first and second raw moment of a mass function on the natural numbers -/
structure RawN (f : ℕ → ℝ) (m q : ℝ) : Prop where
  nonneg : ∀ k, 0 ≤ f k
  one : HasSum f 1
  first : HasSum (fun k : ℕ => (k : ℝ) * f k) m
  second : HasSum (fun k : ℕ => (k : ℝ) ^ 2 * f k) q

theorem RawN.moments {f : ℕ → ℝ} {m q : ℝ} (H : RawN f m q) : HasMoments (ofCounts f) m (q - m ^ 2) :=
  nat_moments H.nonneg H.one H.first H.second

theorem poissonRaw {m : ℝ} (hm : 0 < m) : RawN (poissonPmf m) m (m ^ 2 + m) := by
  have s0 : HasSum (poissonPmf m) 1 := by
    have := ProbabilityTheory.hasSum_one_poissonMeasure ⟨m, hm.le⟩
    exact sum_cast this (fun k => rfl) rfl
  have step : ∀ k : ℕ, ((k + 1 : ℕ) : ℝ) * poissonPmf m (k + 1) = m * poissonPmf m k := by
    intro k
    have : ((k + 1).factorial : ℝ) = (k + 1) * k.factorial := by rw [Nat.factorial_succ]; push_cast; ring
    have hf : (k.factorial : ℝ) ≠ 0 := by positivity
    have hk : (k : ℝ) + 1 ≠ 0 := by positivity
    simp only [poissonPmf, this]
    push_cast
    field_simp
    ring
  have s1 : HasSum (fun k : ℕ => (k : ℝ) * poissonPmf m k) m := by
    rw [← hasSum_nat_add_iff' 1]
    simp only [step, Finset.sum_range_one, Nat.cast_zero, zero_mul, sub_zero]
    simpa using s0.mul_left m
  have s2 : HasSum (fun k : ℕ => (k : ℝ) ^ 2 * poissonPmf m k) (m ^ 2 + m) := by
    rw [← hasSum_nat_add_iff' 1]
    have e : (fun k : ℕ => ((k + 1 : ℕ) : ℝ) ^ 2 * poissonPmf m (k + 1)) =
        fun k : ℕ => m * ((k : ℝ) * poissonPmf m k) + m * poissonPmf m k := by
      funext k
      rw [sq, mul_assoc, step]
      push_cast; ring
    rw [e]
    refine sum_cast ((s1.mul_left m).add (s0.mul_left m)) (fun _ => rfl) ?_
    simp only [Finset.sum_range_one, Nat.cast_zero]; ring
  exact ⟨fun k => by unfold poissonPmf; positivity, s0, s1, s2⟩

/-- a zero-inflated mass function -/
theorem zeroInflatedRaw {f : ℕ → ℝ} {m q psi : ℝ} (H : RawN f m q) (h0 : 0 ≤ psi) (h1 : psi ≤ 1) :
    RawN (zeroInflatedPmf psi f) (psi * m) (psi * q) := by
  refine ⟨fun k => ?_, ?_, ?_, ?_⟩
  · unfold zeroInflatedPmf
    split_ifs
    · have := mul_nonneg h0 (H.nonneg 0); linarith
    · exact mul_nonneg h0 (H.nonneg k)
  · have : HasSum (fun k : ℕ => if k = 0 then 1 - psi else 0) (1 - psi) := by
      simpa using hasSum_ite_eq (0 : ℕ) (1 - psi)
    refine sum_cast (this.add (H.one.mul_left psi)) (fun k => ?_) (by ring)
    unfold zeroInflatedPmf
    split_ifs with h
    · rw [h]
    · rw [zero_add]
  · refine sum_cast (H.first.mul_left psi) (fun k => ?_) rfl
    unfold zeroInflatedPmf
    split_ifs with h
    · simp [h]
    · ring
  · refine sum_cast (H.second.mul_left psi) (fun k => ?_) rfl
    unfold zeroInflatedPmf
    split_ifs with h
    · simp [h]
    · ring

/-! ## Binomial and BetaBinomial -/

theorem bin_sum (n : ℕ) (p : ℝ) : ∑ k ∈ Finset.range (n + 1), binomialPmf n p k = 1 := by
  have := congrArg (Polynomial.eval p) (bernsteinPolynomial.sum ℝ n)
  simpa [Polynomial.eval_finset_sum, bernsteinPolynomial, binomialPmf] using this

theorem bin_first (n : ℕ) (p : ℝ) : ∑ k ∈ Finset.range (n + 1), (k : ℝ) * binomialPmf n p k = n * p := by
  have := congrArg (Polynomial.eval p) (bernsteinPolynomial.sum_smul ℝ n)
  simpa [Polynomial.eval_finset_sum, bernsteinPolynomial, binomialPmf, mul_assoc] using this

theorem bin_second (n : ℕ) (p : ℝ) :
    ∑ k ∈ Finset.range (n + 1), (k : ℝ) ^ 2 * binomialPmf n p k = n * (n - 1) * p ^ 2 + n * p := by
  have h := congrArg (Polynomial.eval p) (bernsteinPolynomial.sum_mul_smul ℝ n)
  have c : ∀ k : ℕ, ((k * (k - 1) : ℕ) : ℝ) = (k : ℝ) ^ 2 - k := by
    intro k
    rcases k with _ | k
    · simp
    · push_cast [Nat.add_sub_cancel]; ring
  simp only [Polynomial.eval_finset_sum, bernsteinPolynomial, Polynomial.eval_mul, Polynomial.eval_pow, Polynomial.eval_sub,
    Polynomial.eval_one, Polynomial.eval_X, Polynomial.eval_natCast, nsmul_eq_mul, c] at h
  have h1 := bin_first n p
  have : ∑ k ∈ Finset.range (n + 1), (k : ℝ) ^ 2 * binomialPmf n p k =
      (∑ k ∈ Finset.range (n + 1), ((k : ℝ) ^ 2 - k) * ((n.choose k : ℝ) * p ^ k * (1 - p) ^ (n - k))) +
        ∑ k ∈ Finset.range (n + 1), (k : ℝ) * binomialPmf n p k := by
    rw [← Finset.sum_add_distrib]
    refine Finset.sum_congr rfl fun k _ => ?_
    unfold binomialPmf
    ring
  rw [this, h, h1]; ring

theorem fin_sum {f : ℕ → ℝ} {n : ℕ} (h : ∀ k, n < k → f k = 0) {c : ℝ} (e : ∑ k ∈ Finset.range (n + 1), f k = c) :
    HasSum f c := by
  rw [← e]
  refine hasSum_sum_of_ne_finset_zero fun k hk => h k ?_
  by_contra hc
  exact hk (Finset.mem_range.2 (by omega))

theorem binomial_zero {n : ℕ} (p : ℝ) {k : ℕ} (h : n < k) : binomialPmf n p k = 0 := by
  unfold binomialPmf; rw [Nat.choose_eq_zero_of_lt h]; simp

theorem binomialRaw (n : ℕ) {p : ℝ} (h0 : 0 ≤ p) (h1 : p ≤ 1) :
    RawN (binomialPmf n p) (n * p) (n * (n - 1) * p ^ 2 + n * p) := by
  refine ⟨fun k => ?_, fin_sum (fun k h => binomial_zero p h) (bin_sum n p),
    fin_sum (fun k h => by rw [binomial_zero p h, mul_zero]) (bin_first n p),
    fin_sum (fun k h => by rw [binomial_zero p h, mul_zero]) (bin_second n p)⟩
  unfold binomialPmf
  have : 0 ≤ 1 - p := by linarith
  positivity

/-- a beta-binomial probability is the average of binomial probabilities -/
theorem beta_mix {a b : ℝ} (ha : 0 < a) (hb : 0 < b) (n : ℕ) {k : ℕ} (hk : k ≤ n) :
    HI (fun p => binomialPmf n p k * betaPdf a b p) (betaBinomialPmf a b n k) := by
  have ha' : 0 < (k : ℝ) + a := by positivity
  have hb' : 0 < ((n : ℝ) - k) + b := by
    have : (k : ℝ) ≤ n := by exact_mod_cast hk
    linarith
  have h := (betaRaw ha' hb').one.cmul
    (n.choose k * (ProbabilityTheory.beta (k + a) (n - k + b) / ProbabilityTheory.beta a b))
  refine (h.congr fun p => ?_).val (by unfold betaBinomialPmf; ring)
  have hB : ProbabilityTheory.beta (k + a) (n - k + b) ≠ 0 := (ProbabilityTheory.beta_pos ha' hb').ne'
  have hB' : ProbabilityTheory.beta a b ≠ 0 := (ProbabilityTheory.beta_pos ha hb).ne'
  unfold betaPdf binomialPmf
  split_ifs with hp
  · have e1 : p ^ ((k : ℝ) + a - 1) = p ^ k * p ^ (a - 1) := by
      rw [add_sub_assoc, Real.rpow_add hp.1, Real.rpow_natCast]
    have e2 : (1 - p) ^ ((n : ℝ) - k + b - 1) = (1 - p) ^ (n - k) * (1 - p) ^ (b - 1) := by
      rw [add_sub_assoc, Real.rpow_add (by linarith [hp.2]), ← Nat.cast_sub hk, Real.rpow_natCast]
    rw [e1, e2]
    field_simp
  · ring

theorem HI.sum {s : Finset ℕ} {g : ℕ → ℝ → ℝ} {c : ℕ → ℝ} (h : ∀ k ∈ s, HI (g k) (c k)) :
    HI (fun x => ∑ k ∈ s, g k x) (∑ k ∈ s, c k) := by
  refine ⟨integrable_finsetSum _ fun k hk => (h k hk).1, ?_⟩
  rw [integral_finsetSum _ fun k hk => (h k hk).1]
  exact Finset.sum_congr rfl fun k hk => (h k hk).2

theorem HI.unique {g : ℝ → ℝ} {c d : ℝ} (h : HI g c) (h' : HI g d) : c = d := h.2.symm.trans h'.2

theorem betaBinomialRaw {a b : ℝ} (ha : 0 < a) (hb : 0 < b) (n : ℕ) :
    RawN (betaBinomialPmf a b n) (n * (a / (a + b)))
      (n * (n - 1) * (a / (a + b) * ((a + 1) / (a + 1 + b))) + n * (a / (a + b))) := by
  have hz : ∀ k, n < k → betaBinomialPmf a b n k = 0 := by
    intro k h
    unfold betaBinomialPmf
    rw [Nat.choose_eq_zero_of_lt h]; simp
  have key : ∀ g : ℕ → ℝ, HI (fun p => (∑ k ∈ Finset.range (n + 1), g k * binomialPmf n p k) * betaPdf a b p)
      (∑ k ∈ Finset.range (n + 1), g k * betaBinomialPmf a b n k) := by
    intro g
    refine (HI.sum fun k hk => (beta_mix ha hb n (Nat.lt_succ_iff.1 (Finset.mem_range.1 hk))).cmul (g k)).congr fun p => ?_
    rw [Finset.sum_mul]
    exact Finset.sum_congr rfl fun k _ => by ring
  have R := betaRaw ha hb
  refine ⟨fun k => ?_, fin_sum hz ?_, fin_sum (fun k h => by rw [hz k h, mul_zero]) ?_,
    fin_sum (fun k h => by rw [hz k h, mul_zero]) ?_⟩
  · rcases le_or_gt k n with h | h
    · refine (beta_mix ha hb n h).2 ▸ integral_nonneg fun p => ?_
      simp only [Pi.zero_apply]
      by_cases hp : 0 < p ∧ p < 1
      · exact mul_nonneg ((binomialRaw n hp.1.le hp.2.le).nonneg k) (R.nonneg p)
      · simp [betaPdf, hp]
    · rw [hz k h]
  · refine HI.unique (by simpa using key fun _ => 1) (R.one.congr fun p => ?_)
    rw [bin_sum, one_mul]
  · refine HI.unique (key fun k => k) ((R.first.cmul n).congr fun p => ?_)
    rw [bin_first]; ring
  · refine HI.unique (key fun k => (k : ℝ) ^ 2) (((R.second.cmul (n * (n - 1))).add (R.first.cmul n)).congr fun p => ?_)
    rw [bin_second]; ring

/-! ## HyperGeometric -/

/-- `x C(k, x) = k C(k-1, x-1)` and Vandermonde's identity -/
theorem hyper_sum (k m n : ℕ) : ∑ x ∈ Finset.range (n + 1), (k.choose x * m.choose (n - x) : ℝ) = (k + m).choose n := by
  rw [Nat.add_choose_eq, Finset.Nat.sum_antidiagonal_eq_sum_range_succ_mk]
  push_cast
  rfl

theorem hyper_first (k m n : ℕ) :
    ∑ x ∈ Finset.range (n + 2), (x : ℝ) * ((k + 1).choose x * m.choose (n + 1 - x) : ℝ) = (k + 1) * (k + m).choose n := by
  rw [Finset.sum_range_succ', ← hyper_sum k m n, Finset.mul_sum]
  simp only [Nat.cast_zero, zero_mul, add_zero]
  refine Finset.sum_congr rfl fun x _ => ?_
  have h : (((k + 1) * k.choose x : ℕ) : ℝ) = ((k + 1).choose (x + 1) * (x + 1) : ℕ) := by
    exact_mod_cast Nat.add_one_mul_choose_eq k x
  push_cast at h
  rw [show n + 1 - (x + 1) = n - x by omega]
  push_cast
  linear_combination (-(m.choose (n - x) : ℝ)) * h

theorem hyper_second (k m n : ℕ) :
    ∑ x ∈ Finset.range (n + 3), ((x : ℝ) * (x - 1)) * ((k + 2).choose x * m.choose (n + 2 - x) : ℝ) =
      (k + 2) * (k + 1) * (k + m).choose n := by
  have := hyper_first k m n
  rw [Finset.sum_range_succ']
  simp only [Nat.cast_zero, zero_mul, add_zero]
  rw [mul_assoc, ← this, Finset.mul_sum]
  refine Finset.sum_congr rfl fun x _ => ?_
  have h : (((k + 1 + 1) * (k + 1).choose x : ℕ) : ℝ) = ((k + 1 + 1).choose (x + 1) * (x + 1) : ℕ) := by
    exact_mod_cast Nat.add_one_mul_choose_eq (k + 1) x
  push_cast at h
  rw [show n + 2 - (x + 1) = n + 1 - x by omega]
  push_cast
  linear_combination (-(x * (m.choose (n + 1 - x) : ℝ))) * h

theorem hyperRaw {N k n : ℕ} (hN : 2 ≤ N) (hk : k ≤ N) (hn : n ≤ N) :
    RawN (hyperGeometricPmf N k n) (n * k / N) (n * (n - 1) * k * (k - 1) / (N * (N - 1)) + n * k / N) := by
  obtain ⟨m, rfl⟩ : ∃ m, N = k + m := ⟨N - k, by omega⟩
  have hc : ((k + m).choose n : ℝ) ≠ 0 := by
    have := Nat.choose_pos hn
    positivity
  have hz : ∀ x, n < x → hyperGeometricPmf (k + m) k n x = 0 := by
    intro x h
    unfold hyperGeometricPmf
    rw [if_neg (not_le.2 h)]
  have key : ∀ g : ℕ → ℝ, ∑ x ∈ Finset.range (n + 1), g x * hyperGeometricPmf (k + m) k n x =
      (∑ x ∈ Finset.range (n + 1), g x * (k.choose x * m.choose (n - x) : ℝ)) / (k + m).choose n := by
    intro g
    rw [Finset.sum_div]
    refine Finset.sum_congr rfl fun x hx => ?_
    unfold hyperGeometricPmf
    rw [if_pos (Nat.lt_succ_iff.1 (Finset.mem_range.1 hx)), Nat.add_sub_cancel_left]
    ring
  have hNr : (0 : ℝ) < ((k + m : ℕ) : ℝ) := by exact_mod_cast (by omega : 0 < k + m)
  have hNr1 : (0 : ℝ) < ((k + m : ℕ) : ℝ) - 1 := by
    have : (2 : ℝ) ≤ ((k + m : ℕ) : ℝ) := by exact_mod_cast hN
    linarith
  have first : ∑ x ∈ Finset.range (n + 1), (x : ℝ) * (k.choose x * m.choose (n - x) : ℝ) =
      n * k / ((k + m : ℕ) : ℝ) * (k + m).choose n := by
    rcases n with _ | n
    · simp
    rcases k with _ | k
    · simp only [Nat.cast_zero, mul_zero, zero_div, zero_mul]
      refine Finset.sum_eq_zero fun x _ => ?_
      rcases x with _ | x <;> simp
    · rw [hyper_first]
      have h : (((k + m + 1) * (k + m).choose n : ℕ) : ℝ) = ((k + m + 1).choose (n + 1) * (n + 1) : ℕ) := by
        exact_mod_cast Nat.add_one_mul_choose_eq (k + m) n
      rw [show k + 1 + m = k + m + 1 by omega] at hNr ⊢
      rw [div_mul_eq_mul_div, eq_div_iff hNr.ne']
      push_cast at h ⊢
      linear_combination ((k : ℝ) + 1) * h
  have second : ∑ x ∈ Finset.range (n + 1), ((x : ℝ) * (x - 1)) * (k.choose x * m.choose (n - x) : ℝ) =
      n * (n - 1) * k * (k - 1) / (((k + m : ℕ) : ℝ) * (((k + m : ℕ) : ℝ) - 1)) * (k + m).choose n := by
    rcases n with _ | _ | n
    · simp
    · simp [Finset.sum_range_succ]
    rcases k with _ | _ | k
    · simp only [Nat.cast_zero, mul_zero, zero_mul, zero_div]
      refine Finset.sum_eq_zero fun x _ => ?_
      rcases x with _ | x <;> simp
    · simp only [zero_add, Nat.cast_one, sub_self, mul_zero, zero_div, zero_mul]
      refine Finset.sum_eq_zero fun x _ => ?_
      rcases x with _ | _ | x
      · simp
      · simp
      · rw [Nat.choose_eq_zero_of_lt (show 1 < x + 1 + 1 by omega)]; simp
    · rw [show k + 1 + 1 = k + 2 by omega, show n + 1 + 1 + 1 = n + 3 by omega, show n + 1 + 1 = n + 2 by omega, hyper_second]
      have h1 : (((k + m + 1) * (k + m).choose n : ℕ) : ℝ) = ((k + m + 1).choose (n + 1) * (n + 1) : ℕ) := by
        exact_mod_cast Nat.add_one_mul_choose_eq (k + m) n
      have h2 : (((k + m + 1 + 1) * (k + m + 1).choose (n + 1) : ℕ) : ℝ) =
          ((k + m + 1 + 1).choose (n + 1 + 1) * (n + 1 + 1) : ℕ) := by
        exact_mod_cast Nat.add_one_mul_choose_eq (k + m + 1) (n + 1)
      have hb := mul_pos hNr hNr1
      rw [show k + 1 + 1 + m = k + m + 1 + 1 by omega] at hb
      rw [show k + 2 + m = k + m + 1 + 1 by omega]
      rw [div_mul_eq_mul_div, eq_div_iff hb.ne']
      push_cast at h1 h2 ⊢
      linear_combination ((k : ℝ) + 2) * (k + 1) * ((k : ℝ) + m + 1 + 1) * h1 + ((k : ℝ) + 2) * (k + 1) * (n + 1) * h2
  refine ⟨fun x => ?_, fin_sum hz ?_, fin_sum (fun x h => by rw [hz x h, mul_zero]) ?_,
    fin_sum (fun x h => by rw [hz x h, mul_zero]) ?_⟩
  · unfold hyperGeometricPmf
    split_ifs <;> positivity
  · have := key fun _ => 1
    simp only [one_mul] at this
    rw [this, hyper_sum, div_self hc]
  · rw [key fun x => (x : ℝ), first, mul_div_cancel_right₀ _ hc]
  · rw [key fun x => (x : ℝ) ^ 2]
    have : ∑ x ∈ Finset.range (n + 1), (x : ℝ) ^ 2 * (k.choose x * m.choose (n - x) : ℝ) =
        ∑ x ∈ Finset.range (n + 1), ((x : ℝ) * (x - 1)) * (k.choose x * m.choose (n - x) : ℝ) +
          ∑ x ∈ Finset.range (n + 1), (x : ℝ) * (k.choose x * m.choose (n - x) : ℝ) := by
      rw [← Finset.sum_add_distrib]
      exact Finset.sum_congr rfl fun x _ => by ring
    rw [this, first, second, ← add_mul, mul_div_cancel_right₀ _ hc]

/-! ## NegativeBinomial -/

/-- a negative binomial probability is the average of Poisson probabilities -/
theorem gamma_mix {mu a : ℝ} (hm : 0 < mu) (ha : 0 < a) (k : ℕ) :
    HI (fun l => poissonPmf l k * gammaPdf a (a / mu) l) (negBinomialPmf mu a k) := by
  have hb : 0 < a / mu := div_pos ha hm
  have h := (gammaInt (a := k + a) (b := 1 + a / mu) (by positivity) (by positivity)).cmul
    ((a / mu) ^ a / (k.factorial * Real.Gamma a))
  refine ((h.all measurableSet_Ioi).congr fun l => ?_).val ?_
  · by_cases hl : 0 < l
    · rw [indicator_of_mem (by exact hl)]
      unfold poissonPmf gammaPdf
      rw [if_pos hl, add_sub_assoc, Real.rpow_add hl, Real.rpow_natCast,
        show -((1 + a / mu) * l) = -l + -(a / mu * l) by ring, Real.exp_add]
      have := (Real.Gamma_pos_of_pos ha).ne'
      field_simp
    · rw [indicator_of_notMem (by exact hl)]
      simp [gammaPdf, hl]
  · unfold negBinomialPmf
    have hG := (Real.Gamma_pos_of_pos ha).ne'
    have e1 : a / (mu + a) = (a / mu) / (1 + a / mu) := by field_simp
    have e2 : mu / (mu + a) = 1 / (1 + a / mu) := by field_simp
    rw [e1, e2, Real.div_rpow hb.le (by positivity), Real.rpow_add (by positivity), Real.rpow_natCast, one_div, inv_pow]
    have h1 : (1 + a / mu) ^ a ≠ 0 := (Real.rpow_pos_of_pos (by positivity) _).ne'
    have h2 : (1 + a / mu) ^ k ≠ 0 := by positivity
    generalize (1 + a / mu) ^ a = A at *
    generalize (1 + a / mu) ^ k = B at *
    generalize (a / mu) ^ a = C at *
    field_simp

theorem hasSum_HI {F : ℕ → ℝ → ℝ} {G : ℝ → ℝ} {c : ℕ → ℝ} {C : ℝ} (h0 : ∀ k x, 0 ≤ F k x) (hF : ∀ k, HI (F k) (c k))
    (hs : ∀ x, HasSum (fun k => F k x) (G x)) (hG : HI G C) : HasSum c C := by
  have := hasSum_integral_of_dominated_convergence (μ := volume) (F := F) (f := G) F (fun k => (hF k).1.aestronglyMeasurable)
    (fun k => .of_forall fun x => by rw [Real.norm_eq_abs, abs_of_nonneg (h0 k x)])
    (.of_forall fun x => (hs x).summable) (hG.1.congr (.of_forall fun x => ((hs x).tsum_eq).symm)) (.of_forall hs)
  rw [hG.2] at this
  exact this.congr_fun fun k => ((hF k).2).symm

theorem negBinomialRaw {mu a : ℝ} (hm : 0 < mu) (ha : 0 < a) :
    RawN (negBinomialPmf mu a) mu (mu ^ 2 * (a + 1) / a + mu) := by
  have hb : 0 < a / mu := div_pos ha hm
  have R := gammaRaw ha hb
  have nn : ∀ k l, 0 ≤ poissonPmf l k * gammaPdf a (a / mu) l := by
    intro k l
    by_cases hl : 0 < l
    · exact mul_nonneg ((poissonRaw hl).nonneg k) (R.nonneg l)
    · simp [gammaPdf, hl]
  have key : ∀ (g : ℕ → ℝ) (s : ℝ → ℝ) (C : ℝ), (∀ k, 0 ≤ g k) → (∀ l, 0 < l → HasSum (fun k => g k * poissonPmf l k) (s l)) →
      HI (fun l => s l * gammaPdf a (a / mu) l) C → HasSum (fun k => g k * negBinomialPmf mu a k) C := by
    intro g s C hg hs hC
    refine hasSum_HI (F := fun k l => g k * (poissonPmf l k * gammaPdf a (a / mu) l)) (fun k l => mul_nonneg (hg k) (nn k l))
      (fun k => (gamma_mix hm ha k).cmul (g k)) (fun l => ?_) hC
    by_cases hl : 0 < l
    · refine sum_cast ((hs l hl).mul_right (gammaPdf a (a / mu) l)) (fun k => by ring) rfl
    · simp [gammaPdf, hl, hasSum_zero]
  refine ⟨fun k => ?_, ?_, ?_, ?_⟩
  · rw [← (gamma_mix hm ha k).2]
    exact integral_nonneg fun l => nn k l
  · have := key (fun _ => 1) (fun _ => 1) 1 (fun _ => zero_le_one) (fun l hl => by simpa using (poissonRaw hl).one)
      (by simpa using R.one)
    simpa using this
  · exact key (fun k => k) (fun l => l) mu (fun _ => by positivity) (fun l hl => (poissonRaw hl).first)
      (R.first.val (by field_simp))
  · refine key (fun k => (k : ℝ) ^ 2) (fun l => l ^ 2 + l) _ (fun _ => by positivity) (fun l hl => (poissonRaw hl).second)
      (((R.second.add R.first).congr fun l => by ring).val ?_)
    field_simp

/-! ## DiscreteWeibull -/

theorem weib_small {q b : ℝ} (h0 : 0 < q) (h1 : q < 1) (hb : 0 < b) :
    Summable fun k : ℕ => (k : ℝ) ^ 2 * q ^ ((k : ℝ) ^ b) := by
  have hc : 0 < -Real.log q := by have := Real.log_neg h0 h1; linarith
  have e : ∀ k : ℕ, q ^ ((k : ℝ) ^ b) = Real.exp (-(-Real.log q) * (k : ℝ) ^ b) := by
    intro k
    rw [Real.rpow_def_of_pos h0, neg_neg]
  have o := (isLittleO_exp_neg_mul_rpow_atTop hc (-4 / b)).comp_tendsto
    ((tendsto_rpow_atTop hb).comp tendsto_natCast_atTop_atTop)
  have o2 : (fun k : ℕ => (k : ℝ) ^ 2 * q ^ ((k : ℝ) ^ b)) =O[atTop] fun k : ℕ => 1 / (k : ℝ) ^ 2 := by
    have := (Asymptotics.isBigO_refl (fun k : ℕ => (k : ℝ) ^ 2) atTop).mul o.isBigO
    refine (this.congr_left fun k => ?_).trans (Asymptotics.IsBigO.of_bound 1 ?_)
    · simp only [Function.comp, e]
    · filter_upwards [eventually_gt_atTop 0] with k hk
      have hk' : (0 : ℝ) < k := by exact_mod_cast hk
      simp only [Function.comp]
      rw [← Real.rpow_mul hk'.le, mul_div_cancel₀ _ hb.ne', one_mul, Real.norm_eq_abs, Real.norm_eq_abs, Real.rpow_neg hk'.le,
        show (4 : ℝ) = ((4 : ℕ) : ℝ) by norm_num, Real.rpow_natCast, abs_of_nonneg (by positivity), abs_of_nonneg (by positivity)]
      refine le_of_eq ?_
      field_simp
  exact summable_of_isBigO_nat (Real.summable_one_div_nat_pow.2 one_lt_two) o2

theorem weibRaw {q b : ℝ} (h0 : 0 < q) (h1 : q < 1) (hb : 0 < b) :
    RawN (discreteWeibullPmf q b) (∑' x : ℕ, q ^ (((x : ℝ) + 1) ^ b))
      (2 * (∑' x : ℕ, ((x : ℝ) + 1) * q ^ (((x : ℝ) + 1) ^ b)) - ∑' x : ℕ, q ^ (((x : ℝ) + 1) ^ b)) := by
  set S : ℕ → ℝ := fun k => q ^ ((k : ℝ) ^ b) with hS
  have hpos : ∀ k, 0 < S k := fun k => Real.rpow_pos_of_pos h0 _
  have s2 := weib_small h0 h1 hb
  have t2 : Summable fun k : ℕ => ((k : ℝ) + 1) ^ 2 * S (k + 1) := by
    have := (summable_nat_add_iff 1).2 s2
    refine this.congr fun k => ?_
    simp [hS]
  have t1 : Summable fun k : ℕ => ((k : ℝ) + 1) * S (k + 1) := by
    refine Summable.of_nonneg_of_le (fun k => by have := hpos (k + 1); positivity) (fun k => ?_) t2
    refine mul_le_mul_of_nonneg_right ?_ (hpos _).le
    have : (0 : ℝ) ≤ k := by positivity
    nlinarith
  have t0 : Summable fun k : ℕ => S (k + 1) := by
    refine Summable.of_nonneg_of_le (fun k => (hpos _).le) (fun k => ?_) t1
    have : (0 : ℝ) ≤ k := by positivity
    nlinarith [hpos (k + 1)]
  have ec : ∀ x : ℕ, q ^ (((x : ℝ) + 1) ^ b) = S (x + 1) := fun x => by simp [hS]
  have ep : ∀ k, discreteWeibullPmf q b k = S k - S (k + 1) := fun k => by simp [hS, discreteWeibullPmf]
  have S0 : S 0 = 1 := by simp [hS, Real.zero_rpow hb.ne']
  simp only [ec]
  have r0 : HasSum S (1 + ∑' k, S (k + 1)) := by
    rw [← hasSum_nat_add_iff' 1]
    simpa [S0] using t0.hasSum
  have r1 : HasSum (fun k : ℕ => (k : ℝ) * S k) (∑' k : ℕ, ((k : ℝ) + 1) * S (k + 1)) := by
    rw [← hasSum_nat_add_iff' 1]
    simpa using t1.hasSum
  have r2 : HasSum (fun k : ℕ => (k : ℝ) ^ 2 * S k) (∑' k : ℕ, ((k : ℝ) + 1) ^ 2 * S (k + 1)) := by
    rw [← hasSum_nat_add_iff' 1]
    simpa using t2.hasSum
  refine ⟨fun k => ?_, ?_, ?_, ?_⟩
  · rw [ep, sub_nonneg]
    refine Real.rpow_le_rpow_of_exponent_ge h0 h1.le (Real.rpow_le_rpow (by positivity) ?_ hb.le)
    push_cast; linarith
  · exact sum_cast (r0.sub t0.hasSum) (fun k => (ep k).symm) (by ring)
  · refine sum_cast (r1.sub (t1.hasSum.sub t0.hasSum)) (fun k => ?_) (by ring)
    rw [ep]; ring
  · refine sum_cast ((r2.sub t2.hasSum).add ((t1.hasSum.mul_left 2).sub t0.hasSum)) (fun k => ?_) (by ring)
    rw [ep]; ring

end Verif.Law
