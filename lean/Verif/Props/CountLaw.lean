import Verif.Lemmas.CountLaw
import Verif.Props.NumFit

/-!
# C134: the count families: documented laws, and which mean and variance can be fitted
-/

namespace Verif.Props
open MeasureTheory Verif Verif.Spec Verif.Param Verif.Optim Verif.NumFit Verif.Law

private theorem cm_unique {P : Measure ℝ} {m v m' v' : ℝ} (h : HasMoments P m v) (h' : HasMoments P m' v') :
    m = m' ∧ v = v' := by
  have e : m = m' := by rw [← h.mean, h'.mean]
  subst e
  exact ⟨rfl, by rw [← h.var, h'.var]⟩

private theorem cm_eps : (0 : ℝ) < eps ∧ eps < 1 := by unfold eps; constructor <;> norm_num

private theorem cm_cast {P : Measure ℝ} {m v m' v' : ℝ} (h : HasMoments P m v) (e : m = m') (e' : v = v') :
    HasMoments P m' v' := e ▸ e' ▸ h

/-- **C134**: Binomial: the documented mass function has total mass one, mean `n p` and variance `n p (1 - p)`. -/
theorem binomial_documented (n : ℕ) (p : ℝ) (h0 : 0 ≤ p) (h1 : p ≤ 1) :
    HasMoments (ofCounts (binomialPmf n p)) (n * p) (n * p * (1 - p)) :=
  cm_cast (binomialRaw n h0 h1).moments rfl (by ring)

/-- **C134**: NegativeBinomial: total mass one, mean `mu`, variance `mu (alpha + mu) / alpha`; every probability is the average
of Poisson probabilities over a Gamma distributed rate with shape `alpha` and mean `mu`; with `n = alpha` and
`p = alpha / (mu + alpha)` the mass function is the other documented one. -/
theorem negative_binomial_documented (mu alpha : ℝ) (hm : 0 < mu) (ha : 0 < alpha) :
    HasMoments (ofCounts (negBinomialPmf mu alpha)) mu (mu * (alpha + mu) / alpha) ∧
    (∀ x, negBinomialPmf mu alpha x = ∫ r, poissonPmf r x * gammaPdf alpha (alpha / mu) r) ∧
    HasMoments (ofPdf (gammaPdf alpha (alpha / mu))) mu (mu ^ 2 / alpha) ∧
    ∀ n p, n = alpha → p = alpha / (mu + alpha) → ∀ x, negBinomialPmf mu alpha x =
      Real.Gamma (x + n) / (x.factorial * Real.Gamma n) * p ^ n * (1 - p) ^ x := by
  refine ⟨cm_cast (negBinomialRaw hm ha).moments rfl (by field_simp; ring), fun x => (gamma_mix hm ha x).2.symm,
    cm_cast (Law.gamma ha (div_pos ha hm)) (by field_simp) (by field_simp), ?_⟩
  rintro n p rfl rfl x
  unfold negBinomialPmf
  rw [show 1 - n / (mu + n) = mu / (mu + n) by field_simp; ring]

/-- **C134**: BetaBinomial: total mass one, mean and variance as documented; every probability is the average of Binomial
probabilities over a Beta distributed probability of success. -/
theorem beta_binomial_documented (alpha beta : ℝ) (n : ℕ) (ha : 0 < alpha) (hb : 0 < beta) :
    HasMoments (ofCounts (betaBinomialPmf alpha beta n)) (n * (alpha / (alpha + beta)))
      (n * alpha * beta * (alpha + beta + n) / ((alpha + beta) ^ 2 * (alpha + beta + 1))) ∧
    ∀ x ≤ n, betaBinomialPmf alpha beta n x = ∫ p, binomialPmf n p x * betaPdf alpha beta p := by
  refine ⟨cm_cast (betaBinomialRaw ha hb n).moments rfl ?_, fun x hx => (beta_mix ha hb n hx).2.symm⟩
  have h1 : alpha + beta ≠ 0 := by positivity
  have h2 : alpha + 1 + beta ≠ 0 := by positivity
  have h3 : alpha + beta + 1 ≠ 0 := by positivity
  field_simp
  ring

/-- **C134**: HyperGeometric: total mass one, mean `n k / N` and, for at least two objects, the documented variance; with one
object the documented formula divides by zero, and the variance is zero. -/
theorem hypergeometric_documented (N k n : ℕ) (hk : k ≤ N) (hn : n ≤ N) :
    (2 ≤ N → HasMoments (ofCounts (hyperGeometricPmf N k n)) (n * k / N) ((N - n) * n * k * (N - k) / ((N - 1) * N ^ 2))) ∧
    (N = 1 → HasMoments (ofCounts (hyperGeometricPmf N k n)) (n * k) 0) ∧
    ∀ x, hyperGeometricPmf N k n x ≠ 0 ↔ n + k - N ≤ x ∧ x ≤ min k n := by
  refine ⟨fun hN => cm_cast (hyperRaw hN hk hn).moments rfl ?_, ?_, fun x => ?_⟩
  · have h1 : (2 : ℝ) ≤ N := by exact_mod_cast hN
    have h2 : (N : ℝ) - 1 ≠ 0 := by linarith
    have h3 : (N : ℝ) ≠ 0 := by linarith
    field_simp
    ring
  · rintro rfl
    have main : ∀ j : ℕ, hyperGeometricPmf 1 k n = (fun x => if x = j then 1 else 0) → (n * k : ℕ) = j →
        HasMoments (ofCounts (hyperGeometricPmf 1 k n)) (n * k) 0 := by
      intro j h e
      rw [h]
      have ej : ((n : ℝ) * k) = j := by exact_mod_cast e
      have R : RawN (fun x : ℕ => if x = j then (1 : ℝ) else 0) j (j ^ 2) := by
        refine ⟨fun x => by split_ifs <;> norm_num, hasSum_ite_eq _ _, ?_, ?_⟩
        · refine sum_cast (hasSum_ite_eq j (j : ℝ)) (fun x => ?_) rfl
          split_ifs with h <;> simp [h]
        · refine sum_cast (hasSum_ite_eq j ((j : ℝ) ^ 2)) (fun x => ?_) rfl
          split_ifs with h <;> simp [h]
      exact cm_cast R.moments ej.symm (by ring)
    interval_cases k <;> interval_cases n
    · refine main 0 ?_ rfl
      funext x; rcases x with _ | x <;> simp [hyperGeometricPmf]
    · refine main 0 ?_ rfl
      funext x; rcases x with _ | x <;> simp [hyperGeometricPmf]
    · refine main 0 ?_ rfl
      funext x; rcases x with _ | x <;> simp [hyperGeometricPmf]
    · refine main 1 ?_ rfl
      funext x; rcases x with _ | _ | x <;> simp [hyperGeometricPmf]
  · unfold hyperGeometricPmf
    have hc : (N.choose n : ℝ) ≠ 0 := by
      have := Nat.choose_pos hn
      positivity
    split_ifs with h
    · rw [div_ne_zero_iff, mul_ne_zero_iff]
      simp only [ne_eq, hc, not_false_eq_true, and_true, Nat.cast_eq_zero, Nat.choose_eq_zero_iff, not_lt, le_min_iff]
      omega
    · simp only [ne_eq, not_true_eq_false, le_min_iff, false_iff]
      omega

/-- **C134**: DiscreteWeibull: total mass one, and the documented sums are the mean and the variance. -/
theorem discrete_weibull_documented (q beta : ℝ) (h0 : 0 < q) (h1 : q < 1) (hb : 0 < beta) :
    ∃ mu s, HasSum (fun x : ℕ => q ^ (((x : ℝ) + 1) ^ beta)) mu ∧ HasSum (fun x : ℕ => ((x : ℝ) + 1) * q ^ (((x : ℝ) + 1) ^ beta)) s ∧
      HasMoments (ofCounts (discreteWeibullPmf q beta)) mu (2 * s - mu - mu ^ 2) := by
  have s2 := weib_small h0 h1 hb
  have t2 : Summable fun k : ℕ => ((k : ℝ) + 1) ^ 2 * q ^ (((k : ℝ) + 1) ^ beta) := by
    refine ((summable_nat_add_iff 1).2 s2).congr fun k => ?_
    simp
  have hpos : ∀ k : ℕ, 0 < q ^ (((k : ℝ) + 1) ^ beta) := fun k => Real.rpow_pos_of_pos h0 _
  have hk : ∀ k : ℕ, (0 : ℝ) ≤ k := fun k => by positivity
  have t1 : Summable fun k : ℕ => ((k : ℝ) + 1) * q ^ (((k : ℝ) + 1) ^ beta) := by
    refine Summable.of_nonneg_of_le (fun k => by have := hpos k; positivity) (fun k => ?_) t2
    exact mul_le_mul_of_nonneg_right (by nlinarith [hk k]) (hpos k).le
  have t0 : Summable fun k : ℕ => q ^ (((k : ℝ) + 1) ^ beta) := by
    refine Summable.of_nonneg_of_le (fun k => (hpos k).le) (fun k => ?_) t1
    nlinarith [hpos k, hk k]
  exact ⟨_, _, t0.hasSum, t1.hasSum, (weibRaw h0 h1 hb).moments⟩

/-- **C134**: the zero-inflated families: total mass one, mean and variance as documented. -/
theorem zero_inflated_documented (psi : ℝ) (h0 : 0 ≤ psi) (h1 : psi ≤ 1) :
    (∀ mu, 0 < mu → HasMoments (ofCounts (zeroInflatedPmf psi (poissonPmf mu))) (psi * mu) (psi * mu * (1 + (1 - psi) * mu))) ∧
    (∀ (n : ℕ) (p : ℝ), 0 ≤ p → p ≤ 1 → HasMoments (ofCounts (zeroInflatedPmf psi (binomialPmf n p))) (psi * n * p)
      (psi * n * p * (1 - p) + n ^ 2 * p ^ 2 * (psi - psi ^ 2))) ∧
    ∀ mu alpha, 0 < mu → 0 < alpha → HasMoments (ofCounts (zeroInflatedPmf psi (negBinomialPmf mu alpha))) (psi * mu)
      (psi * (mu ^ 2 / alpha) + psi * mu + psi * mu ^ 2 - psi ^ 2 * mu ^ 2) := by
  refine ⟨fun mu hm => cm_cast (zeroInflatedRaw (poissonRaw hm) h0 h1).moments rfl (by ring),
    fun n p hp hp' => cm_cast (zeroInflatedRaw (binomialRaw n hp hp') h0 h1).moments (by ring) (by ring),
    fun mu alpha hm ha => cm_cast (zeroInflatedRaw (negBinomialRaw hm ha) h0 h1).moments rfl (by field_simp; ring)⟩

/-! ### Which mean and variance can be had -/

/-- mean and variance of a distribution of the family -/
private noncomputable def cMean : CountPair → ℝ → ℝ → ℝ
  | .negativeBinomial, a, _ => a
  | .ziPoisson, a, b => a * b
  | .betaBinomial n, a, b => n * (a / (a + b))
  | .ziBinomial n, a, b => a * n * b
  | .ziNegativeBinomial _, a, b => a * b

private noncomputable def cVar : CountPair → ℝ → ℝ → ℝ
  | .negativeBinomial, a, b => a * (b + a) / b
  | .ziPoisson, a, b => a * b * (1 + (1 - a) * b)
  | .betaBinomial n, a, b => n * a * b * (a + b + n) / ((a + b) ^ 2 * (a + b + 1))
  | .ziBinomial n, a, b => a * n * b * (1 - b) + n ^ 2 * b ^ 2 * (a - a ^ 2)
  | .ziNegativeBinomial alpha, a, b => a * (b ^ 2 / alpha) + a * b + a * b ^ 2 - a ^ 2 * b ^ 2

private theorem c_moments (F : CountPair) (hF : F.Ok) (a b : ℝ) (h : F.Adm a b) :
    HasMoments (ofCounts (F.pmf a b)) (cMean F a b) (cVar F a b) := by
  cases F with
  | negativeBinomial => exact (negative_binomial_documented a b h.1 h.2).1
  | ziPoisson => exact (zero_inflated_documented a h.1.1.le h.1.2.le).1 b h.2
  | betaBinomial n => exact (beta_binomial_documented a b n h.1 h.2).1
  | ziBinomial n => exact (zero_inflated_documented a h.1.1.le h.1.2.le).2.1 n b h.2.1.le h.2.2.le
  | ziNegativeBinomial alpha => exact (zero_inflated_documented a h.1.1.le h.1.2.le).2.2 b alpha h.2 hF

private theorem c_in (F : CountPair) (hF : F.Ok) (a b : ℝ) (h : F.Adm a b) :
    F.Reach (cMean F a b) (cVar F a b) ∧ F.fitted (cMean F a b) (cVar F a b) = (a, b) := by
  cases F with
  | negativeBinomial =>
    obtain ⟨ha, hb⟩ := h
    have e : a * (b + a) / b - a = a ^ 2 / b := by field_simp; ring
    refine ⟨⟨ha, ?_⟩, ?_⟩
    · have : 0 < a ^ 2 / b := by positivity
      simp only [cMean, cVar]; linarith
    · simp only [CountPair.fitted, cMean, cVar, e]
      rw [Prod.mk.injEq]
      exact ⟨rfl, by field_simp⟩
  | ziPoisson =>
    obtain ⟨⟨ha, ha'⟩, hb⟩ := h
    have hab := mul_pos ha hb
    have e : a * b * (1 + (1 - a) * b) / (a * b) - 1 + a * b = b := by field_simp; ring
    refine ⟨⟨hab, ?_⟩, ?_⟩
    · have := mul_pos hab (mul_pos (sub_pos.2 ha') hb)
      simp only [cMean, cVar]; linarith
    · simp only [CountPair.fitted, cMean, cVar, e]
      rw [Prod.mk.injEq]
      exact ⟨by field_simp, rfl⟩
  | betaBinomial n =>
    obtain ⟨ha, hb⟩ := h
    have hn : (2 : ℝ) ≤ n := by exact_mod_cast (show 2 ≤ n from hF)
    have h1 : 0 < a + b := by positivity
    have h2 : 0 < a + b + 1 := by positivity
    have hn1 : (0 : ℝ) < n - 1 := by linarith
    have e0 : (n : ℝ) * (a / (a + b)) * (n - n * (a / (a + b))) = n ^ 2 * a * b / (a + b) ^ 2 := by field_simp; ring
    have e1 : n * (n * a * b * (a + b + n) / ((a + b) ^ 2 * (a + b + 1))) - n ^ 2 * a * b / (a + b) ^ 2 =
        n ^ 2 * a * b * (n - 1) / ((a + b) ^ 2 * (a + b + 1)) := by field_simp; ring
    have e2 : n ^ 2 * a * b / (a + b) ^ 2 - n * a * b * (a + b + n) / ((a + b) ^ 2 * (a + b + 1)) =
        n * a * b * (n - 1) / ((a + b) * (a + b + 1)) := by field_simp; ring
    have p1 : 0 < n ^ 2 * a * b * (n - 1) / ((a + b) ^ 2 * (a + b + 1)) := by positivity
    have p2 : 0 < n * a * b * (n - 1) / ((a + b) * (a + b + 1)) := by positivity
    refine ⟨⟨?_, ?_⟩, ?_⟩
    · simp only [cMean, cVar]; rw [e0]; linarith
    · simp only [cMean, cVar]; rw [e0]; linarith
    · simp only [CountPair.fitted, cMean, cVar]
      rw [e0, e1, e2, Prod.mk.injEq]
      constructor
      · field_simp
      · field_simp
        ring
  | ziBinomial n =>
    obtain ⟨⟨ha, ha'⟩, hb, hb'⟩ := h
    have hn : (2 : ℝ) ≤ n := by exact_mod_cast (show 2 ≤ n from hF)
    have hn1 : (0 : ℝ) < n - 1 := by linarith
    have hab : 0 < a * n * b := by positivity
    have q1 := sub_pos.2 ha'
    have q2 := sub_pos.2 hb'
    have e : (a * n * b * (1 - b) + n ^ 2 * b ^ 2 * (a - a ^ 2)) / (a * n * b) - 1 + a * n * b = (n - 1) * b := by
      field_simp; ring
    refine ⟨⟨?_, ?_⟩, ?_⟩
    · have : 0 < a * n * b * (n * b * (n - 1) * (1 - a)) := by positivity
      simp only [cMean, cVar]; nlinarith
    · have : 0 < a * n * b * ((n - 1) * (1 - b)) := by positivity
      simp only [cMean, cVar]; nlinarith
    · simp only [CountPair.fitted, cMean, cVar, e]
      rw [Prod.mk.injEq]
      constructor
      · field_simp
      · field_simp
  | ziNegativeBinomial alpha =>
    obtain ⟨⟨ha, ha'⟩, hb⟩ := h
    have hal : 0 < alpha := hF
    have hab := mul_pos ha hb
    have q1 := sub_pos.2 ha'
    have e : (a * (b ^ 2 / alpha) + a * b + a * b ^ 2 - a ^ 2 * b ^ 2) / (a * b) - 1 + a * b = b * (1 + alpha) / alpha := by
      field_simp; ring
    refine ⟨⟨hab, ?_⟩, ?_⟩
    · have : 0 < a * b ^ 2 * (1 - a) * (1 + 1 / alpha) := by positivity
      have e2 : a * (b ^ 2 / alpha) + a * b + a * b ^ 2 - a ^ 2 * b ^ 2 - (a * b + (a * b) ^ 2 / alpha) =
          a * b ^ 2 * (1 - a) * (1 + 1 / alpha) := by field_simp; ring
      simp only [cMean, cVar]; linarith
    · simp only [CountPair.fitted, cMean, cVar, e]
      rw [Prod.mk.injEq]
      constructor
      · field_simp
      · field_simp

private theorem c_out (F : CountPair) (hF : F.Ok) (m v : ℝ) (h : F.Reach m v) :
    F.Adm (F.fitted m v).1 (F.fitted m v).2 ∧ cMean F (F.fitted m v).1 (F.fitted m v).2 = m ∧
      cVar F (F.fitted m v).1 (F.fitted m v).2 = v := by
  cases F with
  | negativeBinomial =>
    obtain ⟨hm, hv⟩ := h
    have h1 : 0 < v - m := by linarith
    simp only [CountPair.Adm, CountPair.fitted, cMean, cVar]
    refine ⟨⟨hm, by positivity⟩, trivial, ?_⟩
    field_simp
    ring
  | ziPoisson =>
    obtain ⟨hm, hv⟩ := h
    have h1 : 1 < v / m := (one_lt_div hm).2 hv
    have h2 : 0 < v / m - 1 + m := by linarith
    simp only [CountPair.Adm, CountPair.fitted, cMean, cVar]
    have e : m / (v / m - 1 + m) * (v / m - 1 + m) = m := div_mul_cancel₀ _ h2.ne'
    refine ⟨⟨⟨by positivity, (div_lt_one h2).2 (by linarith)⟩, h2⟩, e, ?_⟩
    rw [e, sub_mul, e]
    field_simp
    ring
  | betaBinomial n =>
    obtain ⟨h1, h2⟩ := h
    have hn : (2 : ℝ) ≤ n := by exact_mod_cast (show 2 ≤ n from hF)
    have hp : 0 < m * (n - m) := by nlinarith
    have hm : 0 < m := by
      by_contra hc
      have : m * (n - m) ≤ 0 := mul_nonpos_of_nonpos_of_nonneg (not_lt.1 hc) (by linarith [not_lt.1 hc])
      linarith
    have hnm : 0 < (n : ℝ) - m := pos_of_mul_pos_right hp hm.le
    have d1 : 0 < n * v - m * (n - m) := by linarith
    have d2 : 0 < m * (n - m) - v := by linarith
    simp only [CountPair.Adm, CountPair.fitted, cMean, cVar]
    have es : m * (m * (n - m) - v) / (n * v - m * (n - m)) + (n - m) * (m * (n - m) - v) / (n * v - m * (n - m)) =
        n * (m * (n - m) - v) / (n * v - m * (n - m)) := by field_simp; ring
    have es1 : n * (m * (n - m) - v) / (n * v - m * (n - m)) + 1 = (n - 1) * (m * (n - m)) / (n * v - m * (n - m)) := by
      field_simp; ring
    have esn : n * (m * (n - m) - v) / (n * v - m * (n - m)) + n = n * ((n - 1) * v) / (n * v - m * (n - m)) := by
      field_simp; ring
    have hn1 : (0 : ℝ) < n - 1 := by linarith
    refine ⟨⟨by positivity, by positivity⟩, ?_, ?_⟩
    · rw [es]; field_simp
    · rw [es, es1, esn]
      field_simp
  | ziBinomial n =>
    obtain ⟨h1, h2⟩ := h
    have hn : (2 : ℝ) ≤ n := by exact_mod_cast (show 2 ≤ n from hF)
    have hp : 0 < m * (n - m) := by nlinarith
    have hm : 0 < m := by
      by_contra hc
      have : m * (n - m) ≤ 0 := mul_nonpos_of_nonpos_of_nonneg (not_lt.1 hc) (by linarith [not_lt.1 hc])
      linarith
    have hn1 : (0 : ℝ) < n - 1 := by linarith
    have c1 : v / m < n - m := by rw [div_lt_iff₀ hm]; linarith
    have c2 : (n - m) / n < v / m := by rw [div_lt_div_iff₀ (by linarith) hm]; linarith
    set c := v / m - 1 + m with hc
    have c3 : m * (n - 1) < n * c := by
      have : (n - m) < v / m * n := by rwa [div_lt_iff₀ (by linarith)] at c2
      rw [hc]; nlinarith
    have hc0 : 0 < c := by nlinarith
    have hv : v = m * (c + 1 - m) := by rw [hc]; field_simp; ring
    simp only [CountPair.Adm, CountPair.fitted, cMean, cVar, ← hc]
    have e : m / (n * (c / (n - 1))) * n * (c / (n - 1)) = m := by field_simp
    refine ⟨⟨⟨by positivity, ?_⟩, by positivity, (div_lt_one hn1).2 (by linarith)⟩, e, ?_⟩
    · rw [div_lt_one (by positivity), ← mul_div_assoc, lt_div_iff₀ hn1]; linarith
    · have e2 : (n : ℝ) ^ 2 * (c / (n - 1)) ^ 2 * (m / (n * (c / (n - 1))) - (m / (n * (c / (n - 1)))) ^ 2) =
          m * (n * (c / (n - 1))) - m ^ 2 := by field_simp
      rw [e, e2, hv]
      field_simp
      ring
  | ziNegativeBinomial alpha =>
    obtain ⟨hm, hv⟩ := h
    have hal : 0 < alpha := hF
    set c := v / m - 1 + m with hc
    have hv' : v = m * (c + 1 - m) := by rw [hc]; field_simp; ring
    have c3 : m * (1 + alpha) < c * alpha := by
      have : m + m ^ 2 / alpha < m * (c + 1 - m) := by linarith
      have h' : m * (1 + m / alpha) < m * (c + 1 - m) := by
        have e : m * (1 + m / alpha) = m + m ^ 2 / alpha := by ring
        linarith
      have h2 := lt_of_mul_lt_mul_left h' hm.le
      have h3 : m / alpha < c - m := by linarith
      rw [div_lt_iff₀ hal] at h3
      linarith
    have hc0 : 0 < c := by
      have : 0 < m * (1 + alpha) := by positivity
      exact pos_of_mul_pos_left (this.trans c3) hal.le
    simp only [CountPair.Adm, CountPair.fitted, cMean, cVar, ← hc]
    refine ⟨⟨⟨by positivity, ?_⟩, by positivity⟩, by field_simp, ?_⟩
    · rw [div_lt_one (by positivity), lt_div_iff₀ (by positivity)]; exact c3
    · rw [hv']
      field_simp
      ring

/-- **C134**: a distribution of the family has mean `m` and variance `v` exactly if these can be had and the parameters are the
ones written out. -/
theorem count_iff (F : CountPair) (hF : F.Ok) (a b m v : ℝ) (h : F.Adm a b) :
    HasMoments (ofCounts (F.pmf a b)) m v ↔ F.Reach m v ∧ (a, b) = F.fitted m v := by
  constructor
  · intro h'
    obtain ⟨rfl, rfl⟩ := cm_unique (c_moments F hF a b h) h'
    obtain ⟨e1, e2⟩ := c_in F hF a b h
    exact ⟨e1, e2.symm⟩
  · rintro ⟨hr, e⟩
    obtain ⟨-, e1, e2⟩ := c_out F hF m v hr
    rw [← e] at e1 e2
    exact cm_cast (c_moments F hF a b h) e1 e2

/-- **C134**: every distribution of these families has a mean and a variance. -/
theorem count_has (F : CountPair) (hF : F.Ok) (a b : ℝ) (h : F.Adm a b) : ∃ m v, HasMoments (ofCounts (F.pmf a b)) m v :=
  ⟨_, _, c_moments F hF a b h⟩

/-- **C134**: which means and variances can be had. -/
theorem count_attained (F : CountPair) (hF : F.Ok) (m v : ℝ) :
    (∃ a b, F.Adm a b ∧ HasMoments (ofCounts (F.pmf a b)) m v) ↔ F.Reach m v := by
  constructor
  · rintro ⟨a, b, h, hm⟩
    exact ((count_iff F hF a b m v h).1 hm).1
  · intro hr
    exact ⟨_, _, (c_out F hF m v hr).1, (count_iff F hF _ _ m v (c_out F hF m v hr).1).2 ⟨hr, rfl⟩⟩

/-- **C134**: a Binomial with both parameters free has mean `m` and variance `v` only if `m ^ 2 / (m - v)` is a whole number:
almost all targets cannot be had. -/
theorem binomial_attained (m v : ℝ) (n : ℕ) (p : ℝ) (hn : 0 < n) (h0 : 0 < p) (h1 : p < 1) :
    HasMoments (ofCounts (binomialPmf n p)) m v ↔ 0 < v ∧ v < m ∧ (n : ℝ) = m ^ 2 / (m - v) ∧ p = 1 - v / m := by
  have hn' : (0 : ℝ) < n := by exact_mod_cast hn
  have hq : 0 < 1 - p := by linarith
  have key := binomial_documented n p h0.le h1.le
  constructor
  · intro h
    obtain ⟨rfl, rfl⟩ := cm_unique key h
    have hp : 0 < n * p := by positivity
    refine ⟨by positivity, by nlinarith, ?_, by field_simp; ring⟩
    rw [show n * p - n * p * (1 - p) = n * p * p by ring]
    field_simp
  · rintro ⟨hv, hvm, en, ep⟩
    have hm : 0 < m := hv.trans hvm
    have d : 0 < m - v := by linarith
    have e1 : n * p = m := by rw [en, ep]; field_simp
    exact cm_cast key e1 (by rw [e1, ep]; field_simp; ring)

/-- **C134**: with one trial a BetaBinomial is a Bernoulli: the variance follows from the mean, and only the ratio of the
parameters matters. -/
theorem beta_binomial_one (alpha beta c : ℝ) (ha : 0 < alpha) (hb : 0 < beta) (hc : 0 < c) :
    (∀ x, betaBinomialPmf (c * alpha) (c * beta) 1 x = betaBinomialPmf alpha beta 1 x) ∧
    HasMoments (ofCounts (betaBinomialPmf alpha beta 1)) (alpha / (alpha + beta))
      (alpha / (alpha + beta) * (1 - alpha / (alpha + beta))) := by
  have val : ∀ a b : ℝ, 0 < a → 0 < b → ∀ x, betaBinomialPmf a b 1 x =
      if x = 0 then b / (a + b) else if x = 1 then a / (a + b) else 0 := by
    intro a b ha hb x
    have hs : a + b ≠ 0 := by positivity
    have g1 := (Real.Gamma_pos_of_pos ha).ne'
    have g2 := (Real.Gamma_pos_of_pos hb).ne'
    have g3 := (Real.Gamma_pos_of_pos (add_pos ha hb)).ne'
    rcases x with _ | _ | x
    · simp only [betaBinomialPmf, ProbabilityTheory.beta, Nat.choose_zero_right, Nat.cast_one, Nat.cast_zero, zero_add, sub_zero,
        if_true]
      rw [add_comm 1 b, Real.Gamma_add_one hb.ne', show a + (b + 1) = a + b + 1 by ring, Real.Gamma_add_one hs]
      field_simp
    · simp only [betaBinomialPmf, ProbabilityTheory.beta, Nat.choose_self, Nat.cast_one, zero_add, sub_self, one_ne_zero, if_false,
        if_true]
      rw [add_comm 1 a, Real.Gamma_add_one ha.ne', show a + 1 + b = a + b + 1 by ring, Real.Gamma_add_one hs]
      field_simp
    · simp [betaBinomialPmf, Nat.choose_eq_zero_of_lt (show 1 < x + 1 + 1 by omega)]
  refine ⟨fun x => ?_, cm_cast (beta_binomial_documented alpha beta 1 ha hb).1 (by simp) ?_⟩
  · rw [val _ _ (mul_pos hc ha) (mul_pos hc hb), val _ _ ha hb, ← mul_add, mul_div_mul_left _ _ hc.ne',
      mul_div_mul_left _ _ hc.ne']
  · have h1 : alpha + beta ≠ 0 := by positivity
    have h3 : alpha + beta + 1 ≠ 0 := by positivity
    push_cast
    field_simp
    ring

/-- the parameters of the plots in the documentation -/
example : HasMoments (ofCounts (binomialPmf 5 (1 / 2))) (5 / 2) (5 / 4) ∧
    HasMoments (ofCounts (negBinomialPmf 10 2)) 10 60 ∧
    HasMoments (ofCounts (hyperGeometricPmf 50 10 20)) 4 (96 / 49) := by
  have h1 := binomial_documented 5 (1 / 2) (by norm_num) (by norm_num)
  have h2 := (negative_binomial_documented 10 2 (by norm_num) (by norm_num)).1
  have h3 := (hypergeometric_documented 50 10 20 (by norm_num) (by norm_num)).1 (by norm_num)
  norm_num at h1 h2 h3 ⊢
  exact ⟨h1, h2, h3⟩

/-- mean 5/2 and variance 5/4: five trials; mean 2 and variance 1/2 would need 8/3 trials -/
example : HasMoments (ofCounts (binomialPmf 5 (1 / 2))) (5 / 2) (5 / 4) ∧
    ∀ (n : ℕ) (p : ℝ), 0 < n → 0 < p → p < 1 → ¬ HasMoments (ofCounts (binomialPmf n p)) 2 (1 / 2) := by
  refine ⟨(binomial_attained _ _ 5 _ (by norm_num) (by norm_num) (by norm_num)).2 (by norm_num), ?_⟩
  intro n p hn h0 h1 h
  obtain ⟨-, -, e, -⟩ := (binomial_attained _ _ n p hn h0 h1).1 h
  norm_num at e
  have : (3 * n : ℝ) = 8 := by rw [e]; norm_num
  have : 3 * n = 8 := by exact_mod_cast this
  omega

end Verif.Props
