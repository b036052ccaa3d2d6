import Verif.Model.TruncatedMoments
import Verif.Props.Truncated
import Verif.Props.Grids
import Verif.Props.CensoredMoments
import Verif.Props.CensoredEntropy
import Verif.Lemmas.GridSum

set_option linter.unusedSimpArgs false

/-!
# C61: moments and entropy reported by `Truncated` over a discrete base
-/

namespace Verif.Props
open Verif MeasureTheory Verif.Spec Verif.Modifier Verif.Interval Verif.TruncatedMoments

/-- a truncated discrete distribution meets the contract of a base distribution -/
noncomputable def truncBase (b : Base) (hd : b.discrete = true) (l u : EReal) (hl : Whole l)
    (hm : 0 < b.law.real (between l u)) : Base where
  law := truncLaw b.law l u
  prob := truncated_proper b l u hm
  discrete := true
  lo := max b.lo l
  hi := min b.hi u
  pdf := truncPdf b l u
  ppf := fun q => (truncPpf b l u q).getD 0
  pdf_nonneg := fun x => by
    rw [(truncated_pmf b hd l u hl hm).2]; exact measureReal_nonneg
  in_support := by
    have h1 : ∀ᵐ (y : ℝ) ∂truncLaw b.law l u, b.lo ≤ (y : EReal) ∧ (y : EReal) ≤ b.hi :=
      ProbabilityTheory.cond_absolutelyContinuous.ae_le b.in_support
    have h2 : ∀ᵐ (y : ℝ) ∂truncLaw b.law l u, y ∈ between l u :=
      ProbabilityTheory.ae_cond_mem (meas_between l u)
    filter_upwards [h1, h2] with y h1 h2
    exact ⟨max_le h1.1 h2.1, le_min h1.2 h2.2⟩
  discrete_law := fun _ => truncated_pmf b hd l u hl hm
  continuous_law := by simp
  ppf_inverse := fun q h0 h1 x => by
    obtain ⟨Q, hQ, hq, -⟩ := truncated_ppf b l u (fun _ => hl) hm q h0 h1
    rw [hQ]; exact hq x

private theorem xvals_eq (b : Base) (hd : b.discrete = true) (l u : EReal) (hl : Whole l)
    (hm : 0 < b.law.real (between l u)) :
    truncXvals b l u .full = xvalsDiscrete (truncBase b hd l u hl hm) .full (some 200) ∧
    truncXvals b l u .restricted = xvalsDiscrete (truncBase b hd l u hl hm) .restricted (some 200) := by
  obtain ⟨Q1, h1, -⟩ := truncated_ppf b l u (fun _ => hl) hm 0.0001 (by norm_num) (by norm_num)
  obtain ⟨Q2, h2, -⟩ := truncated_ppf b l u (fun _ => hl) hm 0.9999 (by norm_num) (by norm_num)
  have p1 : (truncBase b hd l u hl hm).ppf 0.0001 = Q1 := by
    show (truncPpf b l u 0.0001).getD 0 = _; rw [h1]; rfl
  have p2 : (truncBase b hd l u hl hm).ppf 0.9999 = Q2 := by
    show (truncPpf b l u 0.9999).getD 0 = _; rw [h2]; rfl
  have p3 : (truncBase b hd l u hl hm).lo = (truncSupport b l u).1 := rfl
  have p4 : (truncBase b hd l u hl hm).hi = (truncSupport b l u).2 := rfl
  constructor
  · unfold truncXvals xvalsDiscrete truncEndpoints finiteEndpoints
    simp only [Except.ok_bind', p1, p2, p3, p4, h1, h2, Option.getD_some]
    by_cases c1 : (truncSupport b l u).1 = ⊤ ∨ (truncSupport b l u).1 = ⊥ <;>
    by_cases c2 : (truncSupport b l u).2 = ⊤ ∨ (truncSupport b l u).2 = ⊥ <;>
    simp only [c1, c2, if_true, if_false, pyIntOpt]
  · unfold truncXvals xvalsDiscrete truncEndpoints finiteEndpoints
    simp only [Except.ok_bind', p1, p2, h1, h2, pyIntOpt, Option.getD_some]

/-- C61, the grid behind the reported moments: between the ends of the support if finite, otherwise the 0.0001
and 0.9999 quantiles of the conditional law. -/
theorem truncated_grid (b : Base) (hd : b.discrete = true) (l u : EReal) (hl : Whole l)
    (hm : 0 < b.law.real (between l u)) (hlo : Whole (max b.lo l)) (hhi : Whole (min b.hi u)) :
    ∃ lo hi : ℤ, truncXvals b l u .full = .ok (discreteXvals lo hi 200) ∧
      (((lo : ℝ) : EReal) = max b.lo l ∨ IsQuantile (truncLaw b.law l u) 0.0001 ((lo : ℝ) : EReal)) ∧
      (((hi : ℝ) : EReal) = min b.hi u ∨ IsQuantile (truncLaw b.law l u) 0.9999 ((hi : ℝ) : EReal)) := by
  obtain ⟨lf, uf, lr, ur, h1, h2, h3, h4, h5, h6⟩ :=
    xvals_endpoints (truncBase b hd l u hl hm) rfl hlo hhi 200
  refine ⟨lf, uf, by rw [(xvals_eq b hd l u hl hm).1, h1], ?_, ?_⟩
  · rcases h5 with h5 | ⟨-, rfl⟩
    · exact .inl h5
    · exact .inr h3
  · rcases h6 with h6 | ⟨-, rfl⟩
    · exact .inl h6
    · exact .inr h4

/-- C61: the probability that the grid leaves out is at most 0.0002 when it enumerates every integer between its
ends, and the reported mean is the mean restricted to the grid. -/
theorem truncated_mean_partial (b : Base) (hd : b.discrete = true) (l u : EReal) (hl : Whole l)
    (hm : 0 < b.law.real (between l u)) (hlo : Whole (max b.lo l)) (hhi : Whole (min b.hi u)) :
    ∃ lo hi : ℤ, truncXvals b l u .full = .ok (discreteXvals lo hi 200) ∧
      (hi - lo ≤ 200 → truncMean b l u = .ok (∫ y in Set.Icc (lo : ℝ) hi, y ∂(truncLaw b.law l u))) ∧
      (truncLaw b.law l u).real (Set.Icc (lo : ℝ) hi)ᶜ ≤ 0.0002 := by
  obtain ⟨lo, hi, hg, h1, h2⟩ := truncated_grid b hd l u hl hm hlo hhi
  have := truncated_proper b l u hm
  have hp := truncated_pmf b hd l u hl hm
  refine ⟨lo, hi, hg, fun hr => ?_, ?_⟩
  · obtain ⟨s1, s2⟩ := xvals_small lo hi 200 (by exact_mod_cast hr)
    unfold truncMean gridSum
    rw [hg]
    simp only [Except.ok_bind', Except.pure_eq]
    rw [sum_eq_integral (truncLaw b.law l u) _ (fun x => x) hp _ lo hi s1 s2]
  · have hsupp := (truncBase b hd l u hl hm).in_support
    have a1 : (truncLaw b.law l u).real (Set.Iio (lo : ℝ)) ≤ 0.0001 := by
      rcases h1 with h1 | h1
      · have hz : (truncLaw b.law l u) (Set.Iio (lo : ℝ)) = 0 := by
          refine measure_mono_null ?_ (ae_iff.1 hsupp)
          intro y hy hc
          have h3 : max b.lo l ≤ (y : EReal) := hc.1
          rw [← h1, EReal.coe_le_coe_iff] at h3
          exact absurd hy (not_lt.2 h3)
        rw [measureReal_def, hz]; norm_num
      · apply real_Iio_le
        intro x hx
        by_contra hc
        push Not at hc
        have := (h1 x).2 hc.le
        rw [EReal.coe_le_coe_iff] at this
        exact absurd hx (not_lt.2 this)
    have a2 : (truncLaw b.law l u).real (Set.Ioi (hi : ℝ)) ≤ 0.0001 := by
      rcases h2 with h2 | h2
      · have hz : (truncLaw b.law l u) (Set.Ioi (hi : ℝ)) = 0 := by
          refine measure_mono_null ?_ (ae_iff.1 hsupp)
          intro y hy hc
          have h3 : (y : EReal) ≤ min b.hi u := hc.2
          rw [← h2, EReal.coe_le_coe_iff] at h3
          exact absurd hy (not_lt.2 h3)
        rw [measureReal_def, hz]; norm_num
      · rw [(compl_tail _ _).1]
        have := (h2 hi).1 le_rfl
        norm_num at this ⊢
        linarith
    have hsub : (Set.Icc (lo : ℝ) hi)ᶜ ⊆ Set.Iio (lo : ℝ) ∪ Set.Ioi (hi : ℝ) := by
      intro y hy
      by_contra hc
      simp only [Set.mem_union, Set.mem_Iio, Set.mem_Ioi, not_or, not_lt] at hc
      exact hy ⟨hc.1, hc.2⟩
    calc _ ≤ (truncLaw b.law l u).real (Set.Iio (lo : ℝ) ∪ Set.Ioi (hi : ℝ)) := measureReal_mono hsub
      _ ≤ _ := (measureReal_union_le _ _).trans (by norm_num at a1 a2 ⊢; linarith)

/-- the moments are those of the conditional law when the support is finite and has at most 201 integers -/
theorem truncated_moments (b : Base) (hd : b.discrete = true) (l u : EReal) (hl : Whole l)
    (hm : 0 < b.law.real (between l u)) (n m : ℤ) (hn : max b.lo l = ((n : ℝ) : EReal))
    (hmm : min b.hi u = ((m : ℝ) : EReal)) (hr : m - n ≤ 200) :
    truncMean b l u = .ok (mean (truncLaw b.law l u)) ∧
    truncVar b l u = .ok (central (truncLaw b.law l u) 2) ∧
    truncStd b l u = .ok (Real.sqrt (central (truncLaw b.law l u) 2)) ∧
    (central (truncLaw b.law l u) 2 ≠ 0 →
      truncSkewness b l u = .ok (some (skew (truncLaw b.law l u))) ∧
      truncKurtosis b l u = .ok (some (exKurt (truncLaw b.law l u)))) ∧
    (central (truncLaw b.law l u) 2 = 0 →
      truncSkewness b l u = .ok none ∧ truncKurtosis b l u = .ok none) := by
  have := truncated_proper b l u hm
  have hp := truncated_pmf b hd l u hl hm
  have hsupp := (truncBase b hd l u hl hm).in_support
  have hg : truncXvals b l u .full = .ok (discreteXvals n m 200) := by
    unfold truncXvals truncEndpoints truncSupport
    simp only [hn, hmm, EReal.coe_ne_top, EReal.coe_ne_bot, or_self, if_false, Except.ok_bind', pyIntOpt,
      pyInt_int, Except.pure_eq]
  obtain ⟨s1, s2⟩ := xvals_small n m 200 (by exact_mod_cast hr)
  have key : ∀ f : ℝ → ℝ, gridSum b l u f (discreteXvals n m 200) = ∫ y, f y ∂(truncLaw b.law l u) := by
    intro f
    unfold gridSum
    rw [sum_eq_integral (truncLaw b.law l u) _ f hp _ n m s1 s2, Measure.restrict_eq_self_of_ae_mem]
    filter_upwards [hsupp] with y hy
    have h1 : max b.lo l ≤ (y : EReal) := hy.1
    have h2 : (y : EReal) ≤ min b.hi u := hy.2
    rw [hn, EReal.coe_le_coe_iff] at h1
    rw [hmm, EReal.coe_le_coe_iff] at h2
    exact ⟨h1, h2⟩
  have m1 : truncMean b l u = .ok (mean (truncLaw b.law l u)) := by
    unfold truncMean
    rw [hg]; simp only [Except.ok_bind', Except.pure_eq, key]; rfl
  have m2 : truncVar b l u = .ok (central (truncLaw b.law l u) 2) := by
    unfold truncVar
    rw [hg, m1]; simp only [Except.ok_bind', Except.pure_eq, key]; rfl
  have m3 : truncStd b l u = .ok (Real.sqrt (central (truncLaw b.law l u) 2)) := by
    unfold truncStd
    rw [m2]; simp only [Except.ok_bind', Except.pure_eq]
  have hnn : 0 ≤ central (truncLaw b.law l u) 2 := integral_nonneg fun y => by positivity
  have hpow : ∀ (k : ℕ) (s : ℝ), ∫ y, ((y - mean (truncLaw b.law l u)) / s) ^ k ∂(truncLaw b.law l u) =
      central (truncLaw b.law l u) k / s ^ k := by
    intro k s
    simp only [div_pow]
    rw [integral_div]; rfl
  refine ⟨m1, m2, m3, fun h => ?_, fun h => ?_⟩
  · have hs : Real.sqrt (central (truncLaw b.law l u) 2) ≠ 0 := by
      rw [Real.sqrt_ne_zero hnn]; exact h
    unfold truncSkewness truncKurtosis
    rw [hg, m1, m3]
    simp only [Except.ok_bind', Except.pure_eq, key, if_neg hs, hpow]
    exact ⟨rfl, rfl⟩
  · unfold truncSkewness truncKurtosis
    rw [hg, m1, m3]
    simp only [Except.ok_bind', Except.pure_eq, h, Real.sqrt_zero, if_true, and_self]

/-- C61: the median is a median of the conditional law. -/
theorem truncated_median (b : Base) (l u : EReal) (hl : b.discrete = true → Whole l)
    (hm : 0 < b.law.real (between l u)) :
    ∃ Q, truncMedian b l u = some Q ∧ IsQuantile (truncLaw b.law l u) (1 / 2) Q ∧ l ≤ Q ∧ Q ≤ u := by
  have := truncated_ppf b l u hl hm 0.5 (by norm_num) (by norm_num)
  norm_num [truncMedian] at this ⊢
  exact this

/-! ### wide supports -/

private theorem wide_grid (b : Base) (l u : EReal) (n m : ℤ) (hn : max b.lo l = ((n : ℝ) : EReal))
    (hmm : min b.hi u = ((m : ℝ) : EReal)) : truncXvals b l u .full = .ok (discreteXvals n m 200) := by
  unfold truncXvals truncEndpoints truncSupport
  simp only [hn, hmm, EReal.coe_ne_top, EReal.coe_ne_bot, or_self, if_false, Except.ok_bind', pyIntOpt,
    pyInt_int, Except.pure_eq]

open Classical in
/-- C61 fails for wider supports: uniform on 0..400, bounds 0 and 400, has mean 200; less is reported. -/
theorem truncated_mean_wrong :
    ∃ b : Base, b.discrete = true ∧ 0 < b.law.real (between ((0 : ℝ) : EReal) ((400 : ℝ) : EReal)) ∧
      mean (truncLaw b.law ((0 : ℝ) : EReal) ((400 : ℝ) : EReal)) = 200 ∧
      ∃ r, truncMean b ((0 : ℝ) : EReal) ((400 : ℝ) : EReal) = .ok r ∧ r < 200 := by
  have hall : ∀ k ∈ Finset.range 401, ((k : ℕ) : ℝ) ∈ between ((0 : ℝ) : EReal) ((400 : ℝ) : EReal) := by
    intro k hk
    simp only [Finset.mem_range] at hk
    simp only [between, Set.mem_ofPred_eq, EReal.coe_le_coe_iff]
    exact ⟨by positivity, by exact_mod_cast (by omega : k ≤ 400)⟩
  have hone : (diceLaw 400).real (between ((0 : ℝ) : EReal) ((400 : ℝ) : EReal)) = 1 := by
    rw [diceLaw_real, Finset.sum_congr rfl (fun k hk => if_pos (hall k hk))]
    norm_num
  have hW : Whole ((0 : ℝ) : EReal) := Or.inr (Or.inr ⟨0, by norm_num⟩)
  have hpos : 0 < (dice 400).law.real (between ((0 : ℝ) : EReal) ((400 : ℝ) : EReal)) := by
    show 0 < (diceLaw 400).real _; rw [hone]; norm_num
  refine ⟨dice 400, rfl, hpos, ?_, ?_⟩
  · unfold mean
    rw [integral_trunc]
    show (∫ y in between _ _, y ∂(diceLaw 400)) / (diceLaw 400).real _ = _
    rw [hone, dice_setIntegral _ _ _ (meas_between _ _), Finset.sum_congr rfl (fun k hk => if_pos (hall k hk)),
      ← Finset.sum_div, ← Nat.cast_sum, Finset.sum_range_id]
    norm_num
  · have hg := wide_grid (dice 400) ((0 : ℝ) : EReal) ((400 : ℝ) : EReal) 0 400
      (by show max (0 : EReal) _ = _; simp) (by
        show min (((400 : ℕ) : ℝ) : EReal) _ = _
        norm_num)
    refine ⟨_, by unfold truncMean; rw [hg]; rfl, ?_⟩
    have hle : ∀ x ∈ (discreteXvals 0 400 200).map fun (x : ℤ) =>
        (x : ℝ) * truncPdf (dice 400) ((0 : ℝ) : EReal) ((400 : ℝ) : EReal) (x : ℝ), x ≤ 400 / 401 := by
      intro y hy
      obtain ⟨x, hx, rfl⟩ := List.mem_map.1 hy
      rw [trunc_pdf_eq _ _ _ (fun _ => hW) hpos]
      by_cases hb : (x : ℝ) ∈ between ((0 : ℝ) : EReal) ((400 : ℝ) : EReal)
      · rw [Set.indicator_of_mem hb]
        simp only [between, Set.mem_ofPred_eq, EReal.coe_le_coe_iff] at hb
        have hpd : (dice 400).pdf (x : ℝ) ≤ 1 / 401 := by
          show (diceLaw 400).real _ ≤ _
          rw [diceLaw_real]
          lift x to ℕ using (by exact_mod_cast hb.1) with k
          rw [Finset.sum_eq_ite k]
          · split_ifs <;> norm_num
          · intro j _ hj
            rw [if_neg]; simpa using hj
        have hmass : (dice 400).law.real (between ((0 : ℝ) : EReal) ((400 : ℝ) : EReal)) = 1 := hone
        rw [hmass, div_one]
        have : 0 ≤ (dice 400).pdf (x : ℝ) := (dice 400).pdf_nonneg _
        nlinarith [hb.1, hb.2]
      · rw [Set.indicator_of_notMem hb]; norm_num
    have hlen : (discreteXvals 0 400 200).length = 200 :=
      (xvals_large_partial 0 400 200 (by norm_num) (by norm_num) (by decide)).1
    have := List.sum_le_card_nsmul _ _ hle
    rw [List.length_map, hlen] at this
    unfold gridSum
    refine lt_of_le_of_lt this ?_
    norm_num

/-! ### entropy -/

private theorem quantile_unique {μ : Measure ℝ} {q : ℝ} {Q Q' : EReal} (h : IsQuantile μ q Q)
    (h' : IsQuantile μ q Q') : Q = Q' :=
  le_antisymm (le_of_forall_real fun x hx => (h x).2 ((h' x).1 hx))
    (le_of_forall_real fun x hx => (h' x).2 ((h x).1 hx))

private theorem restricted_grid (b : Base) (l u : EReal) (hl : b.discrete = true → Whole l)
    (hm : 0 < b.law.real (between l u)) (n m : ℤ)
    (q1 : IsQuantile (truncLaw b.law l u) 0.0001 ((n : ℝ) : EReal))
    (q2 : IsQuantile (truncLaw b.law l u) 0.9999 ((m : ℝ) : EReal)) :
    truncXvals b l u .restricted = .ok (discreteXvals n m 200) := by
  obtain ⟨Q1, h1, h1', -⟩ := truncated_ppf b l u hl hm 0.0001 (by norm_num) (by norm_num)
  obtain ⟨Q2, h2, h2', -⟩ := truncated_ppf b l u hl hm 0.9999 (by norm_num) (by norm_num)
  rw [quantile_unique h1' q1] at h1
  rw [quantile_unique h2' q2] at h2
  unfold truncXvals truncEndpoints
  simp only [h1, h2, Except.ok_bind', pyIntOpt, pyInt_int, Except.pure_eq]

private theorem entropyTerm_eq (b : Base) (l u : EReal) (x : ℝ) :
    entropyTerm (truncLogpdf b l u x) =
      if truncPdf b l u x = 0 then none else some (-(Real.negMulLog (truncPdf b l u x))) := by
  unfold truncPdf
  cases h : truncLogpdf b l u x with
  | none => simp [entropyTerm, expOf]
  | some v =>
    simp only [entropyTerm, expOf, (Real.exp_pos v).ne', if_false, Real.negMulLog, Real.log_exp]
    congr 1; ring

/-- C61, entropy: if every integer between the 0.0001 and 0.9999 quantiles has positive probability and there are
at most 201 of them, the reported entropy is the sum of `-p log p` over exactly these integers. -/
theorem truncated_entropy_partial (b : Base) (hd : b.discrete = true) (l u : EReal) (hl : Whole l)
    (hm : 0 < b.law.real (between l u)) (n m : ℤ)
    (q1 : IsQuantile (truncLaw b.law l u) 0.0001 ((n : ℝ) : EReal))
    (q2 : IsQuantile (truncLaw b.law l u) 0.9999 ((m : ℝ) : EReal)) (hr : m - n ≤ 200)
    (hpos : ∀ k : ℤ, n ≤ k → k ≤ m → (truncLaw b.law l u).real {(k : ℝ)} ≠ 0) :
    truncEntropy b l u =
      .ok (some (∑ k ∈ Finset.Icc n m, Real.negMulLog ((truncLaw b.law l u).real {(k : ℝ)}))) := by
  classical
  have hp := truncated_pmf b hd l u hl hm
  obtain ⟨s1, s2⟩ := xvals_small n m 200 (by exact_mod_cast hr)
  have hmap : (discreteXvals n m 200).map (fun (x : ℤ) => entropyTerm (truncLogpdf b l u (x : ℝ))) =
      (discreteXvals n m 200).map (fun (x : ℤ) => some (-(Real.negMulLog ((truncLaw b.law l u).real {(x : ℝ)})))) := by
    apply List.map_congr_left
    intro x hx
    obtain ⟨h1, h2⟩ := (s2 x).1 hx
    rw [entropyTerm_eq, hp.2, if_neg (hpos x h1 h2)]
  have hsum : ∀ (f : ℤ → ℝ) (xs : List ℤ), nanSum (xs.map fun x => some (f x)) = some (xs.map f).sum := by
    intro f xs
    unfold nanSum
    rw [if_neg (by simp), List.filterMap_map]
    simp [Function.comp_def]
  have hnd : (discreteXvals n m 200).Nodup := s1.imp (fun h => ne_of_lt h)
  have hset : (discreteXvals n m 200).toFinset = Finset.Icc n m := by ext x; simp [s2]
  unfold truncEntropy
  rw [restricted_grid b l u (fun _ => hl) hm n m q1 q2]
  simp only [Except.ok_bind', Except.pure_eq]
  rw [hmap, hsum, ← List.sum_toFinset _ hnd, hset, Option.map_some, Finset.sum_neg_distrib, neg_neg]

/-- C61, entropy: it is the entropy of the conditional law if moreover nothing lies outside these quantiles. -/
theorem truncated_entropy_exact (b : Base) (hd : b.discrete = true) (l u : EReal) (hl : Whole l)
    (hm : 0 < b.law.real (between l u)) (n m : ℤ)
    (q1 : IsQuantile (truncLaw b.law l u) 0.0001 ((n : ℝ) : EReal))
    (q2 : IsQuantile (truncLaw b.law l u) 0.9999 ((m : ℝ) : EReal)) (hr : m - n ≤ 200)
    (hpos : ∀ k : ℤ, (truncLaw b.law l u).real {(k : ℝ)} ≠ 0 ↔ n ≤ k ∧ k ≤ m) :
    truncEntropy b l u = .ok (some (massEntropy fun x => (truncLaw b.law l u).real {x})) := by
  rw [truncated_entropy_partial b hd l u hl hm n m q1 q2 hr (fun k h1 h2 => (hpos k).2 ⟨h1, h2⟩)]
  unfold massEntropy
  rw [tsum_eq_sum]
  intro k hk
  have : (truncLaw b.law l u).real {(k : ℝ)} = 0 := by
    by_contra h
    exact hk (by simpa using (hpos k).1 h)
  beta_reduce
  rw [this]; simp

/-- C61, what fails for the entropy: NaN as soon as one integer of the grid has probability zero. -/
theorem truncated_entropy_gap (b : Base) (hd : b.discrete = true) (l u : EReal) (hl : Whole l)
    (hm : 0 < b.law.real (between l u)) (n m : ℤ)
    (q1 : IsQuantile (truncLaw b.law l u) 0.0001 ((n : ℝ) : EReal))
    (q2 : IsQuantile (truncLaw b.law l u) 0.9999 ((m : ℝ) : EReal)) (k : ℤ)
    (hk : k ∈ discreteXvals n m 200) (h0 : (truncLaw b.law l u).real {(k : ℝ)} = 0) :
    truncEntropy b l u = .ok none := by
  have hp := truncated_pmf b hd l u hl hm
  unfold truncEntropy
  rw [restricted_grid b l u (fun _ => hl) hm n m q1 q2]
  simp only [Except.ok_bind', Except.pure_eq]
  have : nanSum ((discreteXvals n m 200).map fun (x : ℤ) => entropyTerm (truncLogpdf b l u (x : ℝ))) = none := by
    unfold nanSum
    rw [if_pos]
    rw [List.any_eq_true]
    refine ⟨none, List.mem_map.2 ⟨k, hk, ?_⟩, rfl⟩
    rw [entropyTerm_eq, hp.2, if_pos h0]
  rw [this]; rfl

/-- C61, what fails for the entropy: NaN whenever more than 201 integers are involved and the upper end of the grid
is the upper bound. -/
theorem truncated_entropy_wide (b : Base) (hd : b.discrete = true) (l : EReal) (hl : Whole l) (n m : ℤ)
    (hm : 0 < b.law.real (between l ((m : ℝ) : EReal)))
    (q1 : IsQuantile (truncLaw b.law l ((m : ℝ) : EReal)) 0.0001 ((n : ℝ) : EReal))
    (q2 : IsQuantile (truncLaw b.law l ((m : ℝ) : EReal)) 0.9999 ((m : ℝ) : EReal)) (hr : 200 < m - n)
    (hcap : m - n ≤ int64Max) : truncEntropy b l ((m : ℝ) : EReal) = .ok none := by
  obtain ⟨-, -, -, h, -⟩ := xvals_large_partial n m 200 (by norm_num) (by exact_mod_cast hr) hcap
  refine truncated_entropy_gap b hd l _ hl hm n m q1 q2 (m + 1) (List.mem_of_getLast? h) ?_
  have := ProbabilityTheory.ae_cond_mem (μ := b.law) (meas_between l ((m : ℝ) : EReal))
  rw [measureReal_def]
  have hz : truncLaw b.law l ((m : ℝ) : EReal) {((m + 1 : ℤ) : ℝ)} = 0 := by
    refine measure_mono_null ?_ (ae_iff.1 this)
    intro y hy hc
    rw [Set.mem_singleton_iff] at hy
    have h2 : (y : EReal) ≤ ((m : ℝ) : EReal) := hc.2
    rw [EReal.coe_le_coe_iff, hy] at h2
    push_cast at h2
    linarith
  rw [hz]; rfl

/-! ### moments of `Censored` computed from those of `Truncated` -/

/-- C61 with C17: for a discrete base censored to a support of at most 201 integers, the mean and variance that the
code reports are those of the clipped variable, nothing being assumed about the numerical integration. -/
theorem censored_mean_var_end_to_end (b : Base) (hd : b.discrete = true) (l u : EReal) (n m : ℤ)
    (hn : max b.lo l = ((n : ℝ) : EReal)) (hmm : min b.hi u = ((m : ℝ) : EReal)) (hnm : n ≤ m)
    (hr : m - n ≤ 200) (hpos : 0 < b.law.real (between ((n : ℝ) : EReal) ((m : ℝ) : EReal)))
    (t : TruncMoments) (h1 : truncMean b (censBounds b l u).1 (censBounds b l u).2 = .ok t.mean)
    (h2 : truncVar b (censBounds b l u).1 (censBounds b l u).2 = .ok t.var) :
    censMean b (censBounds b l u).1 (censBounds b l u).2 t = mean (censLaw b.law l u) ∧
    censVar b (censBounds b l u).1 (censBounds b l u).2 t = central (censLaw b.law l u) 2 := by
  have hb : censBounds b l u = (((n : ℝ) : EReal), ((m : ℝ) : EReal)) := by
    unfold censBounds; rw [hn, hmm]
  have hlo : b.lo ≤ ((n : ℝ) : EReal) := by rw [← hn]; exact le_max_left _ _
  have hhi : ((m : ℝ) : EReal) ≤ b.hi := by rw [← hmm]; exact min_le_left _ _
  have hW : Whole ((n : ℝ) : EReal) := Or.inr (Or.inr ⟨n, rfl⟩)
  have hmo := truncated_moments b hd ((n : ℝ) : EReal) ((m : ℝ) : EReal) hW hpos n m
    (max_eq_right hlo) (min_eq_right hhi) hr
  rw [hb] at h1 h2
  have e1 : t.mean = mean (truncLaw b.law ((n : ℝ) : EReal) ((m : ℝ) : EReal)) :=
    Except.ok.inj (h1.symm.trans hmo.1)
  have e2 : t.var = central (truncLaw b.law ((n : ℝ) : EReal) ((m : ℝ) : EReal)) 2 :=
    Except.ok.inj (h2.symm.trans hmo.2.1)
  have hle : ((n : ℝ) : EReal) ≤ ((m : ℝ) : EReal) := by
    rw [EReal.coe_le_coe_iff]; exact_mod_cast hnm
  have hbd : between ((n : ℝ) : EReal) ((m : ℝ) : EReal) = Set.Icc (n : ℝ) m := by
    ext y; simp only [between, Set.mem_ofPred_eq, EReal.coe_le_coe_iff, Set.mem_Icc]
  have hi : ∀ f : ℝ → ℝ, Continuous f →
      IntegrableOn f (between (censBounds b l u).1 (censBounds b l u).2) b.law := by
    intro f hf
    rw [hb, hbd]
    exact hf.continuousOn.integrableOn_compact isCompact_Icc
  constructor
  · apply censored_mean b l u <;> first
      | exact hi _ (by fun_prop)
      | (rw [hb]; first | exact hle | exact EReal.coe_ne_top _ | exact EReal.coe_ne_bot _ | exact fun _ => hW
                        | exact hpos | exact e1)
  · apply censored_var b l u <;> first
      | exact hi _ (by fun_prop)
      | (rw [hb]; first | exact hle | exact EReal.coe_ne_top _ | exact EReal.coe_ne_bot _ | exact fun _ => hW
                        | exact hpos | exact e1 | exact e2)

/-! ### the hypotheses are met -/

open Classical in
private theorem dice3_pos : 0 < (dice 3).law.real (between ((0 : ℝ) : EReal) ((2 : ℝ) : EReal)) := by
  show 0 < (diceLaw 3).real _
  rw [diceLaw_real]
  simp only [between, Set.mem_ofPred_eq, EReal.coe_le_coe_iff, Finset.sum_range_succ, Finset.sum_range_zero]
  norm_num

/-- uniform on {0,1,2,3} truncated to [0,2] has mean 1, and that is reported -/
example : truncMean (dice 3) ((0 : ℝ) : EReal) ((2 : ℝ) : EReal) = .ok 1 := by
  have h := truncated_moments (dice 3) rfl ((0 : ℝ) : EReal) ((2 : ℝ) : EReal) (Or.inr (Or.inr ⟨0, by norm_num⟩))
    dice3_pos 0 2 (by show max (0 : EReal) _ = _; simp)
    (by show min (((3 : ℕ) : ℝ) : EReal) _ = _
        rw [min_eq_right (by rw [EReal.coe_le_coe_iff]; norm_num)]; norm_num) (by norm_num)
  rw [h.1]
  congr 1
  unfold mean
  rw [witness_trunc]; norm_num

open Classical in
private theorem coin_law (A : Set ℝ) : (truncLaw (dice 1).law ((0 : ℝ) : EReal) ((1 : ℝ) : EReal)).real A =
    (if (0 : ℝ) ∈ A then 1 / 2 else 0) + (if (1 : ℝ) ∈ A then 1 / 2 else 0) := by
  rw [truncLaw_real]
  show (diceLaw 1).real _ / (diceLaw 1).real _ = _
  rw [diceLaw_real, diceLaw_real]
  simp only [between, Set.mem_ofPred_eq, EReal.coe_le_coe_iff, Finset.sum_range_succ, Finset.sum_range_zero,
    Set.mem_inter_iff]
  norm_num

open Classical in
/-- a fair coin: the entropy `log 2` is reported -/
example : ∃ e, truncEntropy (dice 1) ((0 : ℝ) : EReal) ((1 : ℝ) : EReal) = .ok (some e) ∧
    e = massEntropy fun x => (truncLaw (dice 1).law ((0 : ℝ) : EReal) ((1 : ℝ) : EReal)).real {x} := by
  refine ⟨_, truncated_entropy_exact (dice 1) rfl _ _ (Or.inr (Or.inr ⟨0, by norm_num⟩)) ?_ 0 1 ?_ ?_
    (by norm_num) ?_, rfl⟩
  · show 0 < (diceLaw 1).real _
    rw [diceLaw_real]
    simp only [between, Set.mem_ofPred_eq, EReal.coe_le_coe_iff, Finset.sum_range_succ, Finset.sum_range_zero]
    norm_num
  · intro x
    rw [coin_law, EReal.coe_le_coe_iff]
    simp only [Set.mem_Iic]
    push_cast
    by_cases h0 : (0 : ℝ) ≤ x <;> by_cases h1 : (1 : ℝ) ≤ x <;> simp only [h0, h1, if_true, if_false] <;> norm_num
    linarith
  · intro x
    rw [coin_law, EReal.coe_le_coe_iff]
    simp only [Set.mem_Iic]
    push_cast
    by_cases h0 : (0 : ℝ) ≤ x <;> by_cases h1 : (1 : ℝ) ≤ x <;> simp only [h0, h1, if_true, if_false] <;> norm_num
    linarith
  · intro k
    rw [coin_law]
    simp only [Set.mem_singleton_iff]
    have e0 : ((0 : ℝ) = (k : ℝ)) ↔ k = 0 := ⟨fun h => by exact_mod_cast h.symm, fun h => by simp [h]⟩
    have e1 : ((1 : ℝ) = (k : ℝ)) ↔ k = 1 := ⟨fun h => by exact_mod_cast h.symm, fun h => by simp [h]⟩
    simp only [e0, e1]
    by_cases h0 : k = 0
    · subst h0; norm_num
    · by_cases h1 : k = 1
      · subst h1; norm_num
      · simp only [h0, h1, if_false]
        constructor
        · intro h; simp at h
        · intro h; omega

open Classical in
/-- C61, what fails for the entropy: NaN for the uniform distribution on 0..400 with bounds 0 and 400. -/
theorem truncated_entropy_wrong :
    ∃ b : Base, b.discrete = true ∧ 0 < b.law.real (between ((0 : ℝ) : EReal) ((400 : ℝ) : EReal)) ∧
      (∀ k : ℤ, 0 ≤ k → k ≤ 400 → 0 < (truncLaw b.law ((0 : ℝ) : EReal) ((400 : ℝ) : EReal)).real {(k : ℝ)}) ∧
      truncEntropy b ((0 : ℝ) : EReal) ((400 : ℝ) : EReal) = .ok none := by
  have hall : ∀ k ∈ Finset.range 401, ((k : ℕ) : ℝ) ∈ between ((0 : ℝ) : EReal) ((400 : ℝ) : EReal) := by
    intro k hk
    simp only [Finset.mem_range] at hk
    simp only [between, Set.mem_ofPred_eq, EReal.coe_le_coe_iff]
    exact ⟨by positivity, by exact_mod_cast (by omega : k ≤ 400)⟩
  have hone : (diceLaw 400).real (between ((0 : ℝ) : EReal) ((400 : ℝ) : EReal)) = 1 := by
    rw [diceLaw_real, Finset.sum_congr rfl (fun k hk => if_pos (hall k hk))]
    norm_num
  have hlaw : ∀ A : Set ℝ, (truncLaw (dice 400).law ((0 : ℝ) : EReal) ((400 : ℝ) : EReal)).real A =
      ∑ k ∈ Finset.range 401, if (k : ℝ) ∈ A then (1 : ℝ) / 401 else 0 := by
    intro A
    rw [truncLaw_real]
    show (diceLaw 400).real _ / (diceLaw 400).real _ = _
    rw [hone, diceLaw_real, div_one]
    apply Finset.sum_congr rfl
    intro k hk
    have : ((k : ℝ) ∈ between ((0 : ℝ) : EReal) ((400 : ℝ) : EReal) ∩ A) = ((k : ℝ) ∈ A) :=
      propext ⟨fun h => h.2, fun h => ⟨hall k hk, h⟩⟩
    simp only [this]
    norm_num
  have hpos : 0 < (dice 400).law.real (between ((0 : ℝ) : EReal) ((400 : ℝ) : EReal)) := by
    show 0 < (diceLaw 400).real _; rw [hone]; norm_num
  have ht : ((400 : ℝ) : EReal) = (((400 : ℤ) : ℝ) : EReal) := by norm_num
  refine ⟨dice 400, rfl, hpos, ?_, ?_⟩
  · intro k h0 h1
    rw [hlaw]
    lift k to ℕ using h0 with j
    refine Finset.sum_pos' (fun i _ => by split_ifs <;> norm_num) ⟨j, ?_, ?_⟩
    · simp only [Finset.mem_range]; omega
    · rw [if_pos (by simp)]; norm_num
  · rw [ht] at hpos hlaw ⊢
    refine truncated_entropy_wide (dice 400) rfl _ (Or.inr (Or.inr ⟨0, by norm_num⟩)) 0 400 hpos ?_ ?_
      (by norm_num) (by decide)
    · intro x
      rw [hlaw, EReal.coe_le_coe_iff]
      push_cast
      constructor
      · intro hx
        calc (0.0001 : ℝ) ≤ if ((0 : ℕ) : ℝ) ∈ Set.Iic x then (1 : ℝ) / 401 else 0 := by
              rw [if_pos (by simpa using hx)]; norm_num
          _ ≤ _ := Finset.single_le_sum (f := fun k : ℕ => if (k : ℝ) ∈ Set.Iic x then (1 : ℝ) / 401 else 0)
              (fun i _ => by split_ifs <;> norm_num) (by simp)
      · intro h
        by_contra hx
        push Not at hx
        rw [Finset.sum_eq_zero] at h
        · norm_num at h
        · intro k _
          rw [if_neg]
          simp only [Set.mem_Iic, not_le]
          exact lt_of_lt_of_le hx (by positivity)
    · intro x
      rw [hlaw, EReal.coe_le_coe_iff]
      push_cast
      constructor
      · intro hx
        refine le_of_le_of_eq ?_ (Finset.sum_congr rfl (g := fun _ => (1 : ℝ) / 401) fun k hk => ?_).symm
        · norm_num
        · simp only [Finset.mem_range] at hk
          refine if_pos (le_trans ?_ hx)
          exact_mod_cast (by omega : k ≤ 400)
      · intro h
        by_contra hx
        push Not at hx
        have : ∑ k ∈ Finset.range 401, (if (k : ℝ) ∈ Set.Iic x then (1 : ℝ) / 401 else 0) ≤ 400 / 401 := by
          rw [Finset.sum_range_succ, if_neg (by simp only [Set.mem_Iic, not_le]; exact_mod_cast hx), add_zero]
          calc _ ≤ ∑ k ∈ Finset.range 400, (1 : ℝ) / 401 := Finset.sum_le_sum fun i _ => by split_ifs <;> norm_num
            _ = 400 / 401 := by norm_num
        norm_num at h this
        linarith

end Verif.Props
