import Verif.Spec.MlCounts
import Verif.Lemmas.MlNegBin
import Verif.Lemmas.MlZip
import Verif.Lemmas.MlAsym
import Mathlib.Analysis.SpecialFunctions.Pow.Asymptotics
import Mathlib.Tactic

/-!
# C140: NegativeBinomial, ZeroInflatedPoisson, AsymmetricLaplace, BetaScaled, DiscreteWeibull: which samples have a most likely
distribution
-/

namespace Verif.Props
open Verif Verif.Spec Verif.Ml Filter Topology

/-! ## NegativeBinomial -/

private theorem tot_eq (s : List ℕ) (hs : s ≠ []) : tot s = s.length * countMean s := by
  have hn : (0 : ℝ) < s.length := by exact_mod_cast List.length_pos_iff.2 hs
  unfold tot countMean
  field_simp

private theorem sq_eq (s : List ℕ) (hs : s ≠ []) : sqTot s = s.length * (countVar s + countMean s ^ 2) := by
  have hn : (0 : ℝ) < s.length := by exact_mod_cast List.length_pos_iff.2 hs
  have hT := tot_eq s hs
  have h : (s.map fun x : ℕ => ((x : ℝ) - countMean s) ^ 2).sum = sqTot s - 2 * countMean s * tot s + s.length * countMean s ^ 2 := by
    have : ∀ x : ℕ, ((x : ℝ) - countMean s) ^ 2 = (x : ℝ) ^ 2 + (-(2 * countMean s)) * (x : ℝ) + countMean s ^ 2 := by
      intro x
      ring
    simp only [this]
    rw [lsum_add, lsum_add, lsum_const, lsum_mul]
    unfold sqTot tot
    ring
  have h2 : s.length * countVar s = (s.map fun x : ℕ => ((x : ℝ) - countMean s) ^ 2).sum := by
    unfold countVar
    field_simp
  rw [mul_add, h2, h, hT]
  ring

private theorem nb_best_iff (s : List ℕ) (p : ℝ × ℝ) :
    Best (fun p : ℝ × ℝ => 0 < p.1 ∧ 0 < p.2) (fun p => negBinomialPmf p.1 p.2) s p ↔
      (0 < p.1 ∧ 0 < p.2) ∧ ∀ m a, 0 < m → 0 < a → nbObj s m a ≤ nbObj s p.1 p.2 := by
  obtain ⟨C, hC⟩ := nb_log s
  unfold Best
  refine and_congr_right fun hp => ⟨fun h m a hm ha => ?_, fun h q hq => ?_⟩
  · have h1 := Real.log_le_log (lik_pos' fun x _ => negBin_pos hm ha x) (h (m, a) ⟨hm, ha⟩)
    rw [hC m a hm ha, hC p.1 p.2 hp.1 hp.2] at h1
    linarith
  · rw [← Real.log_le_log_iff (lik_pos' fun x _ => negBin_pos hq.1 hq.2 x) (lik_pos' fun x _ => negBin_pos hp.1 hp.2 x),
      hC _ _ hq.1 hq.2, hC _ _ hp.1 hp.2]
    linarith [h q.1 q.2 hq.1 hq.2]

/-- C140: a sample of counts has a most likely NegativeBinomial exactly if its variance exceeds its mean. -/
theorem negBinomial_ml_iff (s : List ℕ) (hs : s ≠ []) :
    (∃ p : ℝ × ℝ, Best (fun p : ℝ × ℝ => 0 < p.1 ∧ 0 < p.2) (fun p => negBinomialPmf p.1 p.2) s p) ↔
      countMean s < countVar s := by
  have hn : (0 : ℝ) < s.length := by exact_mod_cast List.length_pos_iff.2 hs
  have hT := tot_eq s hs
  have hS := sq_eq s hs
  constructor
  · rintro ⟨p, hp⟩
    obtain ⟨hg, hb⟩ := (nb_best_iff s p).1 hp
    by_contra h
    obtain ⟨μ, a, hμ, ha, hlt⟩ := nb_better s hs (countMean s) hT (by
      rw [hS]
      exact mul_le_mul_of_nonneg_left (by linarith) hn.le) p.1 p.2 hg.1 hg.2
    exact absurd (hb μ a hμ ha) (not_le.2 hlt)
  · intro h
    have h0 : ∃ x ∈ s, x ≠ 0 := by
      by_contra hc
      push Not at hc
      have h1 : countMean s = 0 := by
        unfold countMean
        rw [List.map_congr_left (g := fun _ => (0 : ℝ)) fun x hx => by rw [hc x hx]; simp, lsum_const]
        simp
      have h2 : countVar s = 0 := by
        unfold countVar
        rw [h1, List.map_congr_left (g := fun _ => (0 : ℝ)) fun x hx => by rw [hc x hx]; simp, lsum_const]
        simp
      linarith
    have hm : 0 < countMean s := by
      unfold countMean
      obtain ⟨x, hx, hx0⟩ := h0
      have := List.single_le_sum (l := s.map fun x : ℕ => (x : ℝ)) (by
        intro y hy
        obtain ⟨z, -, rfl⟩ := List.mem_map.1 hy
        positivity) (x : ℝ) (List.mem_map.2 ⟨x, hx, rfl⟩)
      have h1 : (0 : ℝ) < x := by exact_mod_cast Nat.pos_of_ne_zero hx0
      exact div_pos (by linarith) hn
    obtain ⟨a, ha, hb⟩ := nb_exists s (countMean s) hm hT (by
      rw [hS]
      exact mul_lt_mul_of_pos_left (by linarith) hn) h0
    exact ⟨(countMean s, a), (nb_best_iff s _).2 ⟨⟨hm, ha⟩, fun μ b hμ hb' => hb μ b hμ hb'⟩⟩

/-- C140: and every such distribution has the mean of the sample. -/
theorem negBinomial_ml_mean (s : List ℕ) (hs : s ≠ []) (p : ℝ × ℝ)
    (hp : Best (fun p : ℝ × ℝ => 0 < p.1 ∧ 0 < p.2) (fun p => negBinomialPmf p.1 p.2) s p) : p.1 = countMean s := by
  have hn : (0 : ℝ) < s.length := by exact_mod_cast List.length_pos_iff.2 hs
  have hT := tot_eq s hs
  obtain ⟨hg, hb⟩ := (nb_best_iff s p).1 hp
  have h0 : 0 ≤ countMean s := by
    unfold countMean
    refine div_nonneg (List.sum_nonneg ?_) hn.le
    intro y hy
    obtain ⟨z, -, rfl⟩ := List.mem_map.1 hy
    positivity
  rcases h0.eq_or_lt with h | hm
  · have hlt := (negBinomial_ml_iff s hs).1 ⟨p, hp⟩
    have hS := sq_eq s hs
    rw [← h] at hlt hS hT
    -- a total of zero means that all values are zero
    have hz : ∀ x ∈ s, x = 0 := by
      intro x hx
      have := List.single_le_sum (l := s.map fun x : ℕ => (x : ℝ)) (by
        intro y hy
        obtain ⟨z, -, rfl⟩ := List.mem_map.1 hy
        positivity) (x : ℝ) (List.mem_map.2 ⟨x, hx, rfl⟩)
      unfold tot at hT
      rw [hT, mul_zero] at this
      have h2 : (0 : ℝ) ≤ x := by positivity
      exact_mod_cast le_antisymm this h2
    have hsq : sqTot s = 0 := by
      unfold sqTot
      rw [List.map_congr_left (g := fun _ => (0 : ℝ)) fun x hx => by rw [hz x hx]; simp, lsum_const]
      simp
    rw [hsq] at hS
    have : 0 < s.length * (countVar s + 0 ^ 2) := mul_pos hn (by linarith)
    linarith
  · by_contra hne
    exact absurd (hb _ _ hm hg.2) (not_le.2 (nb_mean_lt s hs _ _ _ hm hg.2 hT hg.1 hne))

/-- C140: its `alpha` exceeds `m / (4 T ^ 2 + 1)`, where `m` is the mean of the sample and `T` its total. -/
theorem negBinomial_ml_alpha (s : List ℕ) (hs : s ≠ []) (p : ℝ × ℝ)
    (hp : Best (fun p : ℝ × ℝ => 0 < p.1 ∧ 0 < p.2) (fun p => negBinomialPmf p.1 p.2) s p) :
    countMean s / (4 * (s.map fun x : ℕ => (x : ℝ)).sum ^ 2 + 1) < p.2 := by
  have hmean := negBinomial_ml_mean s hs p hp
  obtain ⟨hg, hb⟩ := (nb_best_iff s p).1 hp
  have hT := tot_eq s hs
  have hm : 0 < countMean s := hmean ▸ hg.1
  have h0 : ∃ x ∈ s, x ≠ 0 := by
    by_contra hc
    push Not at hc
    have h1 : countMean s = 0 := by
      unfold countMean
      rw [List.map_congr_left (g := fun _ => (0 : ℝ)) fun x hx => by rw [hc x hx]; simp, lsum_const]
      simp
    linarith
  have := nb_lower s (countMean s) p.2 hm hg.2 hT h0 fun b hb' => by
    have := hb (countMean s) b hm hb'
    rwa [hmean] at this
  rw [← hT] at this
  exact this

/-- C140: if the variance does not exceed the mean, the distribution with the mean of the sample and a larger `alpha` is always
more likely. -/
theorem negBinomial_larger (s : List ℕ) (hs : s ≠ []) (hv : countVar s ≤ countMean s) (hm : 0 < countMean s) (μ a : ℝ)
    (hμ : 0 < μ) (ha : 0 < a) : lik (negBinomialPmf μ a) s < lik (negBinomialPmf (countMean s) (a + 1)) s := by
  have hn : (0 : ℝ) < s.length := by exact_mod_cast List.length_pos_iff.2 hs
  obtain ⟨C, hC⟩ := nb_log s
  have ha1 : 0 < a + 1 := by positivity
  rw [← Real.log_lt_log_iff (lik_pos' fun x _ => negBin_pos hμ ha x) (lik_pos' fun x _ => negBin_pos hm ha1 x),
    hC _ _ hμ ha, hC _ _ hm ha1]
  have := nb_larger s hs (countMean s) hm (tot_eq s hs) (by
    rw [sq_eq s hs]
    exact mul_le_mul_of_nonneg_left (by linarith) hn.le) μ a hμ ha
  linarith

-- 0, 0, 4 has one, 1, 2, 3 has none
example : ∃ p : ℝ × ℝ, Best (fun p : ℝ × ℝ => 0 < p.1 ∧ 0 < p.2) (fun p => negBinomialPmf p.1 p.2) [0, 0, 4] p :=
  (negBinomial_ml_iff _ (by simp)).2 (by norm_num [countMean, countVar])

example : ¬∃ p : ℝ × ℝ, Best (fun p : ℝ × ℝ => 0 < p.1 ∧ 0 < p.2) (fun p => negBinomialPmf p.1 p.2) [1, 2, 3] p := by
  rw [negBinomial_ml_iff _ (by simp)]
  norm_num [countMean, countVar]

/-! ## ZeroInflatedPoisson -/

private theorem zip_best_iff (s : List ℕ) (p : ℝ × ℝ) :
    Best (fun p : ℝ × ℝ => (0 < p.1 ∧ p.1 < 1) ∧ 0 < p.2) (fun p => zeroInflatedPmf p.1 (poissonPmf p.2)) s p ↔
      ((0 < p.1 ∧ p.1 < 1) ∧ 0 < p.2) ∧ ∀ psi mu, 0 < psi → psi < 1 → 0 < mu →
        zipObj (s.count 0) (s.length - s.count 0) (tot s) psi mu ≤ zipObj (s.count 0) (s.length - s.count 0) (tot s) p.1 p.2 := by
  obtain ⟨C, hC⟩ := zip_log s
  unfold Best
  refine and_congr_right fun hp => ⟨fun h psi mu h0 h1 hm => ?_, fun h q hq => ?_⟩
  · have h2 := Real.log_le_log (lik_pos' fun x _ => zip_pos h0 h1 hm x) (h (psi, mu) ⟨⟨h0, h1⟩, hm⟩)
    rw [hC psi mu h0 h1 hm, hC p.1 p.2 hp.1.1 hp.1.2 hp.2] at h2
    linarith
  · rw [← Real.log_le_log_iff (lik_pos' fun x _ => zip_pos hq.1.1 hq.1.2 hq.2 x)
      (lik_pos' fun x _ => zip_pos hp.1.1 hp.1.2 hp.2 x), hC _ _ hq.1.1 hq.1.2 hq.2, hC _ _ hp.1.1 hp.1.2 hp.2]
    linarith [h q.1 q.2 hq.1.1 hq.1.2 hq.2]

/-- C140: a sample of counts has a most likely ZeroInflatedPoisson exactly if it has more zeros than the Poisson distribution
with its mean; there is then only one; its mean is that of the sample, and so is its probability of a zero. -/
theorem ziPoisson_ml_iff (s : List ℕ) (hs : s ≠ []) :
    ((∃ p : ℝ × ℝ, Best (fun p : ℝ × ℝ => (0 < p.1 ∧ p.1 < 1) ∧ 0 < p.2) (fun p => zeroInflatedPmf p.1 (poissonPmf p.2)) s p) ↔
      poissonPmf (countMean s) 0 < zeroShare s) ∧
    ∀ p : ℝ × ℝ, Best (fun p : ℝ × ℝ => (0 < p.1 ∧ p.1 < 1) ∧ 0 < p.2) (fun p => zeroInflatedPmf p.1 (poissonPmf p.2)) s p →
      (p.1 * p.2 = countMean s ∧ zeroInflatedPmf p.1 (poissonPmf p.2) 0 = zeroShare s) ∧
      ∀ q : ℝ × ℝ, Best (fun p : ℝ × ℝ => (0 < p.1 ∧ p.1 < 1) ∧ 0 < p.2) (fun p => zeroInflatedPmf p.1 (poissonPmf p.2)) s q →
        q = p := by
  have hn : (0 : ℝ) < s.length := by exact_mod_cast List.length_pos_iff.2 hs
  have hT := tot_eq s hs
  have hcount : (s.count 0 : ℝ) ≤ s.length := by exact_mod_cast List.count_le_length
  have hN : (s.count 0 : ℝ) + (s.length - s.count 0) = s.length := by ring
  have hm : tot s / s.length = countMean s := by rw [hT]; field_simp
  have hT0 : 0 ≤ tot s := by
    refine List.sum_nonneg ?_
    intro y hy
    obtain ⟨z, -, rfl⟩ := List.mem_map.1 hy
    positivity
  have hk0 : (s.length : ℝ) - s.count 0 = 0 → tot s = 0 := by
    intro h
    have h1 : s.count 0 = s.length := by
      have : (s.length : ℝ) = s.count 0 := by linarith
      exact_mod_cast this.symm
    have h2 : ∀ x ∈ s, x = 0 := fun x hx => (List.count_eq_length.1 h1 x hx).symm
    unfold tot
    rw [List.map_congr_left (g := fun _ => (0 : ℝ)) fun x hx => by rw [h2 x hx]; simp, lsum_const]
    simp
  have hcond : poissonPmf (countMean s) 0 < zeroShare s ↔
      Real.exp (-(tot s / (s.count 0 + (s.length - s.count 0)))) < s.count 0 / (s.count 0 + (s.length - s.count 0)) := by
    rw [hN, hm]
    unfold poissonPmf zeroShare
    simp
  have hnec : ∀ p : ℝ × ℝ,
      Best (fun p : ℝ × ℝ => (0 < p.1 ∧ p.1 < 1) ∧ 0 < p.2) (fun p => zeroInflatedPmf p.1 (poissonPmf p.2)) s p →
      poissonPmf (countMean s) 0 < zeroShare s := by
    intro p hp
    obtain ⟨hg, hb⟩ := (zip_best_iff s p).1 hp
    rw [hcond]
    exact zip_more_zeros (by rw [hN]; exact hn) hg.1.1 hg.1.2 hg.2 hb
  have hsuf := fun h : poissonPmf (countMean s) 0 < zeroShare s => zip_unique (z := s.count 0) (k := s.length - s.count 0)
    (T := tot s) (by positivity) (by linarith) (by rw [hN]; exact hn) hT0 hk0 (hcond.1 h)
  refine ⟨⟨fun ⟨p, hp⟩ => hnec p hp, fun h => ?_⟩, fun p hp => ?_⟩
  · obtain ⟨psi, mu, ⟨h0, h1, hmu⟩, -, -, hb⟩ := hsuf h
    refine ⟨(psi, mu), (zip_best_iff s _).2 ⟨⟨⟨h0, h1⟩, hmu⟩, fun psi' mu' g0 g1 gm => ?_⟩⟩
    rcases eq_or_ne (psi', mu') (psi, mu) with he | hne
    · rw [Prod.mk.injEq] at he
      rw [he.1, he.2]
    · exact (hb psi' mu' g0 g1 gm hne).le
  · obtain ⟨psi, mu, ⟨h0, h1, hmu⟩, e1, e2, hb⟩ := hsuf (hnec p hp)
    have huniq : ∀ q : ℝ × ℝ,
        Best (fun p : ℝ × ℝ => (0 < p.1 ∧ p.1 < 1) ∧ 0 < p.2) (fun p => zeroInflatedPmf p.1 (poissonPmf p.2)) s q → q = (psi, mu) := by
      intro q hq
      obtain ⟨hg, hbq⟩ := (zip_best_iff s q).1 hq
      by_contra hne
      exact absurd (hbq psi mu h0 h1 hmu) (not_le.2 (hb q.1 q.2 hg.1.1 hg.1.2 hg.2 hne))
    have hpe := huniq p hp
    refine ⟨?_, fun q hq => (huniq q hq).trans hpe.symm⟩
    rw [hN] at e1 e2
    rw [hpe]
    constructor
    · rw [← hm, e1]
      field_simp
    · unfold zeroInflatedPmf poissonPmf zeroShare
      simp only [if_true, pow_zero, mul_one, Nat.factorial_zero, Nat.cast_one, div_one]
      rw [eq_div_iff hn.ne']
      linarith

-- 0, 0, 0, 4 has one, 0, 1, 2 has none
example : ∃ p : ℝ × ℝ,
    Best (fun p : ℝ × ℝ => (0 < p.1 ∧ p.1 < 1) ∧ 0 < p.2) (fun p => zeroInflatedPmf p.1 (poissonPmf p.2)) [0, 0, 0, 4] p := by
  rw [(ziPoisson_ml_iff _ (by simp)).1]
  have h : Real.exp (-1) < 3 / 4 := by
    rw [Real.exp_neg, inv_lt_comm₀ (Real.exp_pos 1) (by norm_num)]
    have := Real.exp_one_gt_d9
    norm_num
    linarith
  norm_num [countMean, zeroShare, poissonPmf]
  exact h

example : ¬∃ p : ℝ × ℝ,
    Best (fun p : ℝ × ℝ => (0 < p.1 ∧ p.1 < 1) ∧ 0 < p.2) (fun p => zeroInflatedPmf p.1 (poissonPmf p.2)) [0, 1, 2] p := by
  rw [(ziPoisson_ml_iff _ (by simp)).1, not_lt]
  have h : 1 / 3 ≤ Real.exp (-1) := by
    rw [Real.exp_neg, one_div, inv_le_inv₀ (by norm_num) (Real.exp_pos 1)]
    have := Real.exp_one_lt_d9
    linarith
  norm_num [countMean, zeroShare, poissonPmf]
  norm_num at h
  exact h

/-! ## AsymmetricLaplace -/

private theorem filter_above (s : List ℝ) (c : ℝ) : ((s.filter (c < ·)).map fun x => x - c).sum = above s c := by
  unfold above
  induction s with
  | nil => simp
  | cons x t ih =>
    simp only [List.map_cons, List.sum_cons]
    by_cases h : c < x
    · rw [List.filter_cons_of_pos (by simpa using h), List.map_cons, List.sum_cons, ih, max_eq_left (by linarith)]
    · rw [List.filter_cons_of_neg (by simpa using h), ih, max_eq_right (by linarith), zero_add]

private theorem filter_below (s : List ℝ) (c : ℝ) : ((s.filter (· < c)).map fun x => c - x).sum = below s c := by
  unfold below
  induction s with
  | nil => simp
  | cons x t ih =>
    simp only [List.map_cons, List.sum_cons]
    by_cases h : x < c
    · rw [List.filter_cons_of_pos (by simpa using h), List.map_cons, List.sum_cons, ih, max_eq_left (by linarith)]
    · rw [List.filter_cons_of_neg (by simpa using h), ih, max_eq_right (by linarith), zero_add]

private theorem root_eq (s : List ℝ) (c : ℝ) : rootSplit s c = rootDist s c := by
  unfold rootSplit rootDist
  rw [filter_above, filter_below]

/-- parameters of AsymmetricLaplace in the order of the documentation: `kappa`, `mu`, `b` -/
private theorem asym_best_iff (s : List ℝ) :
    (∃ p : ℝ × ℝ × ℝ, Best (fun p : ℝ × ℝ × ℝ => 0 < p.1 ∧ 0 < p.2.2) (fun p => asymLaplacePdf p.1 p.2.1 p.2.2) s p) ↔
      ∃ p r m : ℝ, 0 < p ∧ 0 < r ∧ ∀ p' r' m' : ℝ, 0 < p' → 0 < r' → asymObj s p' r' m' ≤ asymObj s p r m := by
  constructor
  · rintro ⟨⟨k, m, b⟩, ⟨hk, hb⟩, h⟩
    simp only at hk hb h
    refine ⟨b / k, b * k, m, by positivity, by positivity, fun p' r' m' hp hr => ?_⟩
    have h1 := h (√(r' / p'), m', √(p' * r')) ⟨Real.sqrt_pos.2 (by positivity), Real.sqrt_pos.2 (by positivity)⟩
    simp only at h1
    have h2 := Real.log_le_log (lik_pos' fun x _ => asym_pos (Real.sqrt_pos.2 (by positivity)) (Real.sqrt_pos.2 (by positivity)) x) h1
    rw [asym_log s (Real.sqrt_pos.2 (by positivity)) (Real.sqrt_pos.2 (by positivity)), asym_log s hk hb] at h2
    have e1 : √(p' * r') / √(r' / p') = p' := by
      rw [← Real.sqrt_div (by positivity), show p' * r' / (r' / p') = p' ^ 2 by field_simp, Real.sqrt_sq hp.le]
    have e2 : √(p' * r') * √(r' / p') = r' := by
      rw [← Real.sqrt_mul (by positivity), show p' * r' * (r' / p') = r' ^ 2 by field_simp, Real.sqrt_sq hr.le]
    rw [e1, e2] at h2
    exact h2
  · rintro ⟨p, r, m, hp, hr, h⟩
    have hk : 0 < √(r / p) := Real.sqrt_pos.2 (by positivity)
    have hb : 0 < √(p * r) := Real.sqrt_pos.2 (by positivity)
    refine ⟨(√(r / p), m, √(p * r)), ⟨hk, hb⟩, ?_⟩
    rintro ⟨k', m', b'⟩ ⟨hk', hb'⟩
    simp only at hk' hb' ⊢
    rw [← Real.log_le_log_iff (lik_pos' fun x _ => asym_pos hk' hb' x) (lik_pos' fun x _ => asym_pos hk hb x),
      asym_log s hk' hb', asym_log s hk hb]
    have e1 : √(p * r) / √(r / p) = p := by
      rw [← Real.sqrt_div (by positivity), show p * r / (r / p) = p ^ 2 by field_simp, Real.sqrt_sq hp.le]
    have e2 : √(p * r) * √(r / p) = r := by
      rw [← Real.sqrt_mul (by positivity), show p * r * (r / p) = r ^ 2 by field_simp, Real.sqrt_sq hr.le]
    rw [e1, e2]
    exact h _ _ _ (by positivity) (by positivity)

/-- C140: a sample has a most likely AsymmetricLaplace exactly if the sum of the two roots (of the total distances upwards and
downwards) is smallest at a value that is neither the smallest nor the largest one. -/
theorem asymLaplace_ml_iff (s : List ℝ) (h2 : ∃ x ∈ s, ∃ y ∈ s, x ≠ y) :
    (∃ p : ℝ × ℝ × ℝ, Best (fun p : ℝ × ℝ × ℝ => 0 < p.1 ∧ 0 < p.2.2) (fun p => asymLaplacePdf p.1 p.2.1 p.2.2) s p) ↔
      ∃ c ∈ s, (∃ x ∈ s, x < c) ∧ (∃ y ∈ s, c < y) ∧ ∀ d ∈ s, rootSplit s c ≤ rootSplit s d := by
  rw [asym_best_iff, asym_iff h2]
  simp only [root_eq]

/-- C140: in particular no sample with one or two different values has one. -/
theorem asymLaplace_ml_two (s : List ℝ) (hs : s ≠ []) (a b : ℝ) (h : ∀ x ∈ s, x = a ∨ x = b) :
    ¬∃ p : ℝ × ℝ × ℝ, Best (fun p : ℝ × ℝ × ℝ => 0 < p.1 ∧ 0 < p.2.2) (fun p => asymLaplacePdf p.1 p.2.1 p.2.2) s p := by
  by_cases h2 : ∃ x ∈ s, ∃ y ∈ s, x ≠ y
  · rw [asymLaplace_ml_iff s h2]
    rintro ⟨c, hc, ⟨x, hx, hxc⟩, ⟨y, hy, hcy⟩, -⟩
    rcases h c hc with h1 | h1 <;> rcases h x hx with h3 | h3 <;> rcases h y hy with h4 | h4 <;> linarith
  · rw [asym_best_iff]
    rintro ⟨p, r, m, hp, hr, hb⟩
    push Not at h2
    obtain ⟨c, hc⟩ := List.exists_mem_of_ne_nil s hs
    -- at the common value the likelihood has no bound
    have hA : above s c = 0 := le_antisymm (not_lt.1 fun h => by
      obtain ⟨x, hx, hcx⟩ := above_pos.1 h
      exact hcx.ne (h2 c hc x hx)) (above_nonneg s c)
    have hB : below s c = 0 := le_antisymm (not_lt.1 fun h => by
      obtain ⟨x, hx, hcx⟩ := below_pos.1 h
      exact hcx.ne (h2 x hx c hc)) (below_nonneg s c)
    have hN : (0 : ℝ) < s.length := by exact_mod_cast List.length_pos_iff.2 hs
    have h3 := hb (p / 2) (r / 2) c (by positivity) (by positivity)
    have h4 : asymObj s p r m ≤ -(s.length * Real.log (p + r)) := by
      unfold asymObj
      have := div_nonneg (above_nonneg s m) hp.le
      have := div_nonneg (below_nonneg s m) hr.le
      linarith
    unfold asymObj at h3
    rw [hA, hB] at h3
    unfold asymObj at h4
    simp only [zero_div, sub_zero] at h3
    have h5 := mul_lt_mul_of_pos_left (Real.log_lt_log (show 0 < p / 2 + r / 2 by positivity) (show p / 2 + r / 2 < p + r by linarith)) hN
    linarith

-- -1, 0, 0, 1 has one
example : ∃ p : ℝ × ℝ × ℝ,
    Best (fun p : ℝ × ℝ × ℝ => 0 < p.1 ∧ 0 < p.2.2) (fun p => asymLaplacePdf p.1 p.2.1 p.2.2) [-1, 0, 0, 1] p := by
  rw [asymLaplace_ml_iff _ ⟨-1, by simp, 1, by simp, by norm_num⟩]
  refine ⟨0, by simp, ⟨-1, by simp, by norm_num⟩, ⟨1, by simp, by norm_num⟩, ?_⟩
  have h0 : rootSplit [-1, 0, 0, 1] 0 = 2 := by
    norm_num [rootSplit, List.filter_cons]
  have h4 : √4 = (2 : ℝ) := by
    rw [show (4 : ℝ) = 2 ^ 2 by norm_num, Real.sqrt_sq (by norm_num)]
  intro d hd
  rw [h0]
  simp only [List.mem_cons, List.not_mem_nil, or_false] at hd
  rcases hd with rfl | rfl | rfl | rfl
  · norm_num [rootSplit, List.filter_cons, h4]
  · exact h0.ge
  · exact h0.ge
  · norm_num [rootSplit, List.filter_cons, h4]

/-! ## BetaScaled -/

private theorem lik_ge {α : Type} {f : α → ℝ} {s : List α} {κ : ℝ} (hκ : 0 < κ) (h : ∀ x ∈ s, κ ≤ f x) {c : α} (hc : c ∈ s) :
    κ ^ (s.length - 1) * f c ≤ lik f s := by
  have hpow : ∀ l : List α, (∀ x ∈ l, κ ≤ f x) → κ ^ l.length ≤ lik f l := by
    intro l
    induction l with
    | nil => intro _; simp [lik]
    | cons a t ih =>
      intro h
      simp only [lik, List.map_cons, List.prod_cons, List.length_cons, pow_succ']
      exact mul_le_mul (h a List.mem_cons_self) (ih fun x hx => h x (List.mem_cons_of_mem _ hx)) (by positivity)
        (hκ.le.trans (h a List.mem_cons_self))
  obtain ⟨l1, l2, rfl⟩ := List.append_of_mem hc
  have h1 := hpow l1 fun x hx => h x (by simp [hx])
  have h2 := hpow l2 fun x hx => h x (by simp [hx])
  have e : lik f (l1 ++ c :: l2) = lik f l1 * lik f l2 * f c := by
    simp only [lik, List.map_append, List.map_cons, List.prod_append, List.prod_cons]
    ring
  rw [e, show (l1 ++ c :: l2).length - 1 = l1.length + l2.length by simp, pow_add]
  have hfc : 0 ≤ f c := hκ.le.trans (h c hc)
  exact mul_le_mul_of_nonneg_right (mul_le_mul h1 h2 (by positivity) (le_trans (by positivity) h1)) hfc

/-- C140: with the bounds free, every sample can be made as likely as one likes: a BetaScaled with `alpha < 1` has an infinite
density at its lower bound, which may be put next to the smallest value. -/
theorem betaScaled_ml_unbounded (s : List ℝ) (hs : s ≠ []) (M : ℝ) :
    ∃ a b l u : ℝ, (0 < a ∧ 0 < b ∧ l < u) ∧ (∀ x ∈ s, l < x ∧ x < u) ∧ M < lik (betaScaledPdf a b l u) s := by
  obtain ⟨c, hc, hmin⟩ := s.toFinset.exists_min_image id (by simpa using hs)
  obtain ⟨d, hd, hmax⟩ := s.toFinset.exists_max_image id (by simpa using hs)
  have hc' : c ∈ s := by simpa using hc
  have hmin' : ∀ x ∈ s, c ≤ x := fun x hx => hmin x (by simpa using hx)
  have hmax' : ∀ x ∈ s, x ≤ d := fun x hx => hmax x (by simpa using hx)
  have hcd : c ≤ d := hmax' c hc'
  set W : ℝ := d - c + 2 with hW
  have hW0 : 0 < W := by linarith
  set β := ProbabilityTheory.beta (1 / 2) 1 with hβd
  have hβ : 0 < β := ProbabilityTheory.beta_pos (by norm_num) one_pos
  set κ : ℝ := W ^ (-(1 / 2) : ℝ) / (W ^ (1 / 2 : ℝ) * β) with hκd
  have hκ : 0 < κ := by positivity
  -- value of the density at a distance from the lower bound
  have hval : ∀ e : ℝ, 0 < e → e ≤ 1 → ∀ x ∈ s, ∀ y, 0 < y → x - (c - e) ≤ y →
      y ^ (-(1 / 2) : ℝ) / (W ^ (1 / 2 : ℝ) * β) ≤ betaScaledPdf (1 / 2) 1 (c - e) (d + 1) x := by
    intro e he he1 x hx y hy hxy
    have h1 := hmin' x hx
    have h2 := hmax' x hx
    unfold betaScaledPdf
    rw [if_pos ⟨by linarith, by linarith⟩]
    have e1 : ((1 : ℝ) / 2 - 1) = -(1 / 2) := by norm_num
    have e2 : ((1 : ℝ) / 2 + 1 - 1) = 1 / 2 := by norm_num
    rw [e1, e2, sub_self, Real.rpow_zero, mul_one]
    have h3 : y ^ (-(1 / 2) : ℝ) ≤ (x - (c - e)) ^ (-(1 / 2) : ℝ) :=
      Real.rpow_le_rpow_of_nonpos (by linarith) hxy (by norm_num)
    have h4 : (d + 1 - (c - e)) ^ (1 / 2 : ℝ) ≤ W ^ (1 / 2 : ℝ) :=
      Real.rpow_le_rpow (by linarith) (by linarith) (by norm_num)
    have h5 : 0 < (d + 1 - (c - e)) ^ (1 / 2 : ℝ) := Real.rpow_pos_of_pos (by linarith) _
    exact div_le_div₀ (Real.rpow_nonneg (by linarith) _) h3 (mul_pos h5 hβ) (mul_le_mul_of_nonneg_right h4 hβ.le)
  have ht : Tendsto (fun e : ℝ => κ ^ (s.length - 1) * (e ^ (-(1 / 2) : ℝ) / (W ^ (1 / 2 : ℝ) * β))) (𝓝[>] 0) atTop := by
    have h1 : Tendsto (fun e : ℝ => e ^ (-(1 / 2) : ℝ)) (𝓝[>] 0) atTop := tendsto_rpow_neg_nhdsGT_zero (by norm_num)
    refine Tendsto.const_mul_atTop (by positivity) ?_
    exact h1.atTop_div_const (by positivity)
  obtain ⟨e, ⟨hM, he1⟩, he⟩ := (((ht.eventually (eventually_gt_atTop M)).and
    ((Iic_mem_nhds (show (0 : ℝ) < 1 by norm_num)) |> fun h => mem_nhdsWithin_of_mem_nhds h)).and self_mem_nhdsWithin).exists
  have he : 0 < e := he
  have he1 : e ≤ 1 := he1
  refine ⟨1 / 2, 1, c - e, d + 1, ⟨by norm_num, by norm_num, by linarith⟩, ?_, ?_⟩
  · intro x hx
    have := hmin' x hx
    have := hmax' x hx
    constructor <;> linarith
  · refine hM.trans_le ?_
    refine le_trans ?_ (lik_ge hκ (fun x hx => ?_) hc')
    · refine mul_le_mul_of_nonneg_left ?_ (by positivity)
      exact hval e he he1 c hc' e he (by linarith)
    · exact hval e he he1 x hx W hW0 (by linarith [hmax' x hx])

/-- C140: so no sample has a most likely BetaScaled. -/
theorem betaScaled_ml_none (s : List ℝ) (hs : s ≠ []) :
    ¬∃ p : ℝ × ℝ × ℝ × ℝ, Best (fun p : ℝ × ℝ × ℝ × ℝ => 0 < p.1 ∧ 0 < p.2.1 ∧ p.2.2.1 < p.2.2.2)
      (fun p => betaScaledPdf p.1 p.2.1 p.2.2.1 p.2.2.2) s p := by
  rintro ⟨p, -, h⟩
  obtain ⟨a, b, l, u, hg, -, hM⟩ := betaScaled_ml_unbounded s hs (lik (betaScaledPdf p.1 p.2.1 p.2.2.1 p.2.2.2) s)
  exact absurd (h (a, b, l, u) hg) (not_le.2 hM)

/-! ## DiscreteWeibull -/

private theorem lik_lt {α : Type} {f g : α → ℝ} {s : List α} (hs : s ≠ []) (h : ∀ x ∈ s, 0 < f x ∧ f x < g x) : lik f s < lik g s := by
  induction s with
  | nil => exact absurd rfl hs
  | cons a t ih =>
    simp only [lik, List.map_cons, List.prod_cons]
    obtain ⟨h1, h2⟩ := h a List.mem_cons_self
    rcases eq_or_ne t [] with rfl | ht
    · simpa using h2
    · have h3 := ih ht fun x hx => h x (List.mem_cons_of_mem _ hx)
      exact mul_lt_mul'' h2 h3 h1.le (lik_pos' fun x hx => (h x (List.mem_cons_of_mem _ hx)).1).le

private theorem dw_pos {q β : ℝ} (h0 : 0 < q) (h1 : q < 1) (hβ : 0 < β) (x : ℕ) : 0 < discreteWeibullPmf q β x := by
  unfold discreteWeibullPmf
  rw [sub_pos]
  exact Real.rpow_lt_rpow_of_exponent_gt h0 h1 (Real.rpow_lt_rpow (by positivity) (by linarith) hβ)

/-- C140: a sample whose values are two neighbouring counts (or all the same) has no most likely DiscreteWeibull. -/
theorem discreteWeibull_ml_none (s : List ℕ) (hs : s ≠ []) (c : ℕ) (h : ∀ x ∈ s, x = c ∨ x = c + 1) :
    ¬∃ p : ℝ × ℝ, Best (fun p : ℝ × ℝ => (0 < p.1 ∧ p.1 < 1) ∧ 0 < p.2) (fun p => discreteWeibullPmf p.1 p.2) s p := by
  rintro ⟨⟨q, β⟩, ⟨⟨h0, h1⟩, hβ⟩, hbest⟩
  simp only at h0 h1 hβ hbest
  set A := discreteWeibullPmf q β c with hA
  set B := discreteWeibullPmf q β (c + 1) with hB
  have hA0 : 0 < A := dw_pos h0 h1 hβ c
  have hB0 : 0 < B := dw_pos h0 h1 hβ (c + 1)
  have hAB : A + B < 1 := by
    have h2 : q ^ ((c : ℝ) ^ β) ≤ 1 := Real.rpow_le_one h0.le h1.le (by positivity)
    have h3 : 0 < q ^ ((((c + 1 : ℕ) : ℝ) + 1) ^ β) := Real.rpow_pos_of_pos h0 _
    rw [hA, hB]
    unfold discreteWeibullPmf
    push_cast at h3 ⊢
    linarith
  -- a probability between
  obtain ⟨t, ht1, ht2⟩ : ∃ t, B < t ∧ t < 1 - A := exists_between (by linarith)
  have ht0 : 0 < t := hB0.trans ht1
  have hlam : 0 < -Real.log t := by
    have := Real.log_neg ht0 (by linarith)
    linarith
  set lam := -Real.log t with hl
  have hexp : Real.exp (-lam) = t := by rw [hl, neg_neg, Real.exp_log ht0]
  have hc1 : (0 : ℝ) < (c : ℝ) + 1 := by positivity
  -- large shapes, scaled so that the survival function at `c + 1` stays `t`
  have hpow : ∀ b : ℝ, ∀ y : ℝ, 0 ≤ y → (Real.exp (-(lam / ((c : ℝ) + 1) ^ b))) ^ (y ^ b) = Real.exp (-(lam * (y / (c + 1)) ^ b)) := by
    intro b y hy
    rw [← Real.exp_mul, Real.div_rpow hy hc1.le]
    congr 1
    ring
  have hlow : Tendsto (fun b : ℝ => Real.exp (-(lam * ((c : ℝ) / (c + 1)) ^ b))) atTop (𝓝 1) := by
    have h2 : Tendsto (fun b : ℝ => ((c : ℝ) / (c + 1)) ^ b) atTop (𝓝 0) := by
      refine tendsto_rpow_atTop_of_base_lt_one _ (by have : (0 : ℝ) ≤ (c : ℝ) / (c + 1) := by positivity
                                                     linarith) ((div_lt_one hc1).2 (by linarith))
    have h3 := (Real.continuous_exp.tendsto _).comp ((h2.const_mul lam).neg)
    rw [mul_zero, neg_zero, Real.exp_zero] at h3
    exact h3
  have hhigh : Tendsto (fun b : ℝ => Real.exp (-(lam * (((c : ℝ) + 1 + 1) / (c + 1)) ^ b))) atTop (𝓝 0) := by
    have h2 : Tendsto (fun b : ℝ => (((c : ℝ) + 1 + 1) / (c + 1)) ^ b) atTop atTop :=
      tendsto_rpow_atTop_of_base_gt_one _ ((one_lt_div hc1).2 (by linarith))
    exact Real.tendsto_exp_neg_atTop_nhds_zero.comp (h2.const_mul_atTop hlam)
  have e1 := (hlow.sub_const t).eventually (lt_mem_nhds (show A < 1 - t by linarith))
  have e2 := (hhigh.const_sub t).eventually (lt_mem_nhds (show B < t - 0 by linarith))
  obtain ⟨b, ⟨hb1, hb2⟩, hb0⟩ := ((e1.and e2).and (eventually_gt_atTop 0)).exists
  set Q := Real.exp (-(lam / ((c : ℝ) + 1) ^ b)) with hQ
  have hQ1 : Q < 1 := by
    rw [hQ, Real.exp_lt_one_iff]
    have : 0 < lam / ((c : ℝ) + 1) ^ b := by positivity
    linarith
  have hmid : Q ^ (((c : ℝ) + 1) ^ b) = t := by
    rw [hQ, hpow b _ hc1.le, div_self hc1.ne', Real.one_rpow, mul_one, hexp]
  have g1 : A < discreteWeibullPmf Q b c := by
    unfold discreteWeibullPmf
    rw [hmid, hQ, hpow b _ (by positivity)]
    exact hb1
  have g2 : B < discreteWeibullPmf Q b (c + 1) := by
    unfold discreteWeibullPmf
    push_cast
    rw [hmid, hQ, hpow b _ (by positivity)]
    exact hb2
  have h5 := hbest (Q, b) ⟨⟨Real.exp_pos _, hQ1⟩, hb0⟩
  refine absurd h5 (not_le.2 (lik_lt hs fun x hx => ?_))
  rcases h x hx with rfl | rfl
  · exact ⟨hA0, g1⟩
  · exact ⟨hB0, g2⟩

end Verif.Props
