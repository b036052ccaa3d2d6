import Verif.Lemmas.ModifierBase

set_option linter.unusedSimpArgs false

/-!
# C11, C12: `Truncated`

The law of a truncated distribution is the base law conditioned on the interval.
-/

namespace Verif.Props
open Verif MeasureTheory Verif.Spec Verif.Modifier

/-- C11: the cdf is the cdf of the conditional law, at every point. -/
theorem truncated_cdf (b : Base) (l u : EReal) (hl : b.discrete = true → Whole l)
    (hm : 0 < b.law.real (between l u)) (x : ℝ) :
    truncCdf b l u x = (truncLaw b.law l u).real (Set.Iic x) := by
  have hIic : (Set.Iic x : Set ℝ) = {y : ℝ | (y : EReal) ≤ (x : EReal)} := by ext y; simp
  rw [truncLaw_real]
  unfold truncCdf
  dsimp only
  by_cases h1 : (x : EReal) < adjustLower b.discrete l
  · rw [if_pos h1]
    have : between l u ∩ Set.Iic x = ∅ := by
      ext y
      simp only [between, Set.mem_inter_iff, Set.mem_ofPred_eq, Set.mem_Iic, Set.mem_empty_iff_false,
        iff_false]
      rintro ⟨⟨h2, _⟩, h4⟩
      have : (y : EReal) ≤ x := by exact_mod_cast h4
      exact absurd (lt_of_lt_of_le h1 (adjust_le _ l)) (not_lt.2 (h2.trans this))
    rw [this]; simp
  · rw [if_neg h1]
    push Not at h1
    by_cases h2 : (x : EReal) > u
    · rw [if_pos h2]
      have : between l u ∩ Set.Iic x = between l u := by
        ext y
        simp only [between, Set.mem_inter_iff, Set.mem_ofPred_eq, Set.mem_Iic, and_iff_left_iff_imp]
        rintro ⟨_, h4⟩
        exact_mod_cast h4.trans h2.le
      rw [this, div_self hm.ne']
    · rw [if_neg h2]
      push Not at h2
      rw [hIic, b.mass_between hl h1 h2, b.mass_total hl hm]

/-- C11: what is left after truncation is a probability law. -/
theorem truncated_proper (b : Base) (l u : EReal) (hm : 0 < b.law.real (between l u)) :
    IsProbabilityMeasure (truncLaw b.law l u) := by
  apply ProbabilityTheory.cond_isProbabilityMeasure
  intro h
  rw [measureReal_def, h] at hm
  simp at hm

theorem trunc_pdf_eq (b : Base) (l u : EReal) (hl : b.discrete = true → Whole l)
    (hm : 0 < b.law.real (between l u)) (x : ℝ) :
    truncPdf b l u x = Set.indicator (between l u) (fun y => b.pdf y / b.law.real (between l u)) x := by
  unfold truncPdf truncLogpdf Base.logpdf
  dsimp only
  rw [← b.mass_total hl hm]
  by_cases h : x ∈ between l u
  · have h' : ¬ ((x : EReal) < l ∨ (x : EReal) > u) := by
      push Not; exact h
    rw [if_neg h', Set.indicator_of_mem h]
    unfold logOf
    by_cases h0 : b.pdf x = 0
    · simp [h0, expOf]
    · have hp : 0 < b.pdf x := lt_of_le_of_ne (b.pdf_nonneg x) (Ne.symm h0)
      simp only [h0, if_false, Option.map_some, expOf]
      rw [Real.exp_sub, Real.exp_log hp, Real.exp_log hm]
  · have h' : ((x : EReal) < l ∨ (x : EReal) > u) := by
      by_contra h'; push Not at h'; exact h h'
    rw [if_pos h', Set.indicator_of_notMem h]
    rfl

/-- C11: on a discrete base the pdf is the probability mass function of the conditional law. -/
theorem truncated_pmf (b : Base) (hd : b.discrete = true) (l u : EReal) (hl : Whole l)
    (hm : 0 < b.law.real (between l u)) :
    IsPmf (truncLaw b.law l u) (truncPdf b l u) := by
  obtain ⟨hz, hp⟩ := b.discrete_law hd
  constructor
  · exact ProbabilityTheory.cond_absolutelyContinuous.ae_le hz
  · intro x
    rw [trunc_pdf_eq b l u (fun _ => hl) hm, truncLaw_real]
    by_cases h : x ∈ between l u
    · rw [Set.indicator_of_mem h, hp, Set.inter_eq_self_of_subset_right (by simpa using h)]
    · rw [Set.indicator_of_notMem h, Set.inter_singleton_eq_empty.2 h]; simp

/-- C11: on a continuous base the pdf is a density of the conditional law. -/
theorem truncated_density (b : Base) (hd : b.discrete = false) (l u : EReal)
    (hm : 0 < b.law.real (between l u)) :
    IsDensity volume (truncLaw b.law l u) (truncPdf b l u) := by
  obtain ⟨hpm, hlaw⟩ := b.continuous_law hd
  have heq := trunc_pdf_eq b l u (by simp [hd]) hm
  constructor
  · intro x; rw [heq]
    apply Set.indicator_nonneg; intro y _
    exact div_nonneg (b.pdf_nonneg y) hm.le
  · have : (fun x => ENNReal.ofReal (truncPdf b l u x))
        = Set.indicator (between l u)
          ((b.law (between l u))⁻¹ • fun x => ENNReal.ofReal (b.pdf x)) := by
      ext x
      rw [heq]
      by_cases h : x ∈ between l u
      · rw [Set.indicator_of_mem h, Set.indicator_of_mem h]
        rw [div_eq_inv_mul, ENNReal.ofReal_mul (by positivity), ENNReal.ofReal_inv_of_pos hm,
          ofReal_measureReal]
        rfl
      · rw [Set.indicator_of_notMem h, Set.indicator_of_notMem h]; simp
    rw [this, withDensity_indicator (meas_between l u), withDensity_smul _ (by fun_prop),
      ← restrict_withDensity (meas_between l u), ← hlaw]
    rfl

/-- C11: total probability one, continuous case. -/
theorem truncated_integral_one (b : Base) (hd : b.discrete = false) (l u : EReal)
    (hm : 0 < b.law.real (between l u)) :
    ∫⁻ x, ENNReal.ofReal (truncPdf b l u x) = 1 := by
  have h := (truncated_density b hd l u hm).2
  have := (truncated_proper b l u hm).measure_univ
  rw [h, withDensity_apply _ MeasurableSet.univ] at this
  simpa using this

/-- C11: total probability one, discrete case. -/
theorem truncated_sum_one (b : Base) (hd : b.discrete = true) (l u : EReal) (hl : Whole l)
    (hm : 0 < b.law.real (between l u)) :
    HasSum (fun k : ℤ => truncPdf b l u (k : ℝ)) 1 := by
  obtain ⟨hz, hp⟩ := truncated_pmf b hd l u hl hm
  haveI := truncated_proper b l u hm
  have hsum : ∑' k : ℤ, truncLaw b.law l u {(k : ℝ)} = 1 := by
    rw [← measure_iUnion (fun i j hij => by simpa using hij) (fun k => measurableSet_singleton _)]
    rw [← (measure_univ : truncLaw b.law l u Set.univ = 1)]
    apply measure_congr
    filter_upwards [hz] with y hy
    apply propext
    exact ⟨fun _ => trivial, fun _ => by
      obtain ⟨k, hk⟩ := hy
      exact Set.mem_iUnion.2 ⟨k, hk⟩⟩
  have h1 := ENNReal.hasSum_toReal (f := fun k : ℤ => truncLaw b.law l u {(k : ℝ)})
    (by rw [hsum]; simp)
  rw [← ENNReal.tsum_toReal_eq (fun k => measure_ne_top _ _), hsum] at h1
  simp only [hp, measureReal_def]
  simpa using h1

/-- C11: `logpdf` is the logarithm of `pdf` (with `-inf` exactly where `pdf` is zero). -/
theorem truncated_logpdf (b : Base) (l u : EReal) (x : ℝ) :
    truncLogpdf b l u x = logOf (truncPdf b l u x) := by
  unfold truncPdf
  cases h : truncLogpdf b l u x with
  | none => simp [expOf, logOf]
  | some r => simp [expOf, logOf, (Real.exp_pos r).ne']

/-- C11, what fails: a lower bound that is not an integer on a discrete base loses mass.  Base: a
fair coin on {0, 1}; lower bound 1/2.  The total mass reported is 1/2. -/
theorem truncated_noninteger_lower :
    ∃ (b : Base) (l : EReal), 0 < b.law.real (between l ⊤) ∧
      HasSum (fun k : ℤ => truncPdf b l ⊤ (k : ℝ)) (1 / 2) := by
  classical
  refine ⟨dice 1, ((1 / 2 : ℝ) : EReal), ?_, ?_⟩
  · show 0 < (diceLaw 1).real _
    rw [diceLaw_real]
    simp [Finset.sum_range_succ, between]
    norm_num
  · have hF : (dice 1).cdf ⊤ - (dice 1).cdf (adjustLower true ((1 / 2 : ℝ) : EReal)) = 1 := by
      rw [Base.cdf_top]
      have : adjustLower true ((1 / 2 : ℝ) : EReal) = ((-1 / 2 : ℝ) : EReal) := by
        simp only [adjustLower, if_true]
        rw [show ((1 / 2 : ℝ) : EReal) - 1 = ((1 / 2 - 1 : ℝ) : EReal) by push_cast; rfl]
        norm_num
      rw [this, Base.cdf_coe]
      show 1 - (diceLaw 1).real _ = 1
      rw [diceLaw_real]
      norm_num [Finset.sum_range_succ]
    have hpdf : ∀ k : ℤ, truncPdf (dice 1) ((1 / 2 : ℝ) : EReal) ⊤ (k : ℝ)
        = if k = 1 then 1 / 2 else 0 := by
      intro k
      have hp : (dice 1).pdf (k : ℝ) = if k = 0 ∨ k = 1 then 1 / 2 else 0 := by
        show (diceLaw 1).real _ = _
        rw [diceLaw_real]
        by_cases h0 : k = 0
        · subst h0; norm_num [Finset.sum_range_succ]
        · by_cases h1 : k = 1
          · subst h1; norm_num [Finset.sum_range_succ]
          · have a0 : (0 : ℝ) ≠ k := by exact_mod_cast Ne.symm h0
            have a1 : (1 : ℝ) ≠ k := by exact_mod_cast Ne.symm h1
            simp [Finset.sum_range_succ, h0, h1, a0, a1]
      unfold truncPdf truncLogpdf Base.logpdf
      dsimp only
      have hdis : (dice 1).discrete = true := rfl
      rw [hdis, hF, hp]
      by_cases h1 : k = 1
      · subst h1
        have : ¬ (((1 : ℤ) : ℝ) : EReal) < ((1 / 2 : ℝ) : EReal) := by
          rw [EReal.coe_lt_coe_iff]; norm_num
        simp only [this, false_or, gt_iff_lt, not_top_lt, if_false, logOf]
        norm_num [expOf]
        rw [Real.exp_log (by norm_num)]
      · by_cases h0 : k = 0
        · subst h0
          have : (((0 : ℤ) : ℝ) : EReal) < ((1 / 2 : ℝ) : EReal) := by
            rw [EReal.coe_lt_coe_iff]; norm_num
          simp only [this, true_or, if_true, expOf]
          simp
        · simp [h0, h1, logOf, expOf]
    simp only [hpdf]
    exact hasSum_ite_eq 1 (1 / 2)

/-- the hypotheses are met: a die on {0, …, 5} truncated to [2, 4]; the uniform law on [-1, 1]
truncated from 0 up, with no upper bound -/
example : (dice 5).discrete = true ∧ Whole ((2 : ℝ) : EReal) ∧
    0 < (dice 5).law.real (between ((2 : ℝ) : EReal) ((4 : ℝ) : EReal)) := by
  classical
  refine ⟨rfl, Or.inr (Or.inr ⟨2, by norm_num⟩), ?_⟩
  show 0 < (diceLaw 5).real _
  rw [diceLaw_real]
  norm_num [Finset.sum_range_succ, between]

example : 0 < (unif (-1) 1 (by norm_num)).law.real (between 0 ⊤) := by
  rw [unif_real _ _ _ _ (meas_between _ _)]
  have : between 0 ⊤ ∩ Set.Icc (-1 : ℝ) 1 = Set.Icc 0 1 := by
    ext y; simp only [between, Set.mem_inter_iff, Set.mem_ofPred_eq, Set.mem_Icc, le_top, and_true]
    constructor
    · rintro ⟨h, _, h'⟩; exact ⟨by exact_mod_cast h, h'⟩
    · rintro ⟨h, h'⟩; exact ⟨by exact_mod_cast h, by linarith, h'⟩
  rw [this]
  norm_num

/-! ## C12 -/

/-- C12: for probabilities in (0, 1] the ppf returns the quantile of the truncated law, and it lies
within the bounds. -/
theorem truncated_ppf (b : Base) (l u : EReal) (hl : b.discrete = true → Whole l)
    (hm : 0 < b.law.real (between l u)) (q : ℝ) (h0 : 0 < q) (h1 : q ≤ 1) :
    ∃ Q, truncPpf b l u q = some Q ∧ IsQuantile (truncLaw b.law l u) q Q ∧ l ≤ Q ∧ Q ≤ u := by
  have hΔ := b.mass_total hl hm
  set Δ := b.law.real (between l u) with hΔd
  have hlow := b.cdf_nonneg (adjustLower b.discrete l)
  have hup := b.cdf_le_one u
  set q' := b.cdf (adjustLower b.discrete l) + q * (b.cdf u - b.cdf (adjustLower b.discrete l)) with hq'
  have hq'0 : 0 < q' := by rw [hq', ← hΔ]; positivity
  have hq'1 : q' ≤ 1 := by rw [hq', ← hΔ]; nlinarith
  have hquant : IsQuantile (truncLaw b.law l u) q (b.ppf q') := by
    intro x
    rw [b.ppf_inverse q' hq'0 hq'1 x, ← truncated_cdf b l u hl hm x, ← b.cdf_coe x]
    unfold truncCdf
    dsimp only
    by_cases hx1 : (x : EReal) < adjustLower b.discrete l
    · rw [if_pos hx1]
      have := b.cdf_mono hx1.le
      constructor
      · intro h; rw [hq', ← hΔ] at h; nlinarith [mul_pos h0 hm]
      · intro h; linarith
    · rw [if_neg hx1]
      by_cases hx2 : (x : EReal) > u
      · rw [if_pos hx2]
        have := b.cdf_mono hx2.le
        refine ⟨fun _ => h1, fun _ => ?_⟩
        rw [hq', ← hΔ]; nlinarith
      · rw [if_neg hx2, ← hΔ, le_div_iff₀ hm, hq', ← hΔ]
        constructor <;> intro h <;> linarith
  refine ⟨b.ppf q', ?_, hquant, ?_, ?_⟩
  · unfold truncPpf
    rw [if_neg (by push Not; exact ⟨h0.le, h1⟩)]
  · by_contra hlt
    push Not at hlt
    obtain ⟨x, hx1, hx2⟩ := EReal.lt_iff_exists_real_btwn.1 hlt
    have := (hquant x).1 hx1.le
    rw [truncLaw_real] at this
    have he : between l u ∩ Set.Iic x = ∅ := by
      ext y
      simp only [between, Set.mem_inter_iff, Set.mem_ofPred_eq, Set.mem_Iic, Set.mem_empty_iff_false,
        iff_false]
      rintro ⟨⟨h2, _⟩, h4⟩
      have : (y : EReal) ≤ x := by exact_mod_cast h4
      exact absurd hx2 (not_lt.2 (h2.trans this))
    rw [he] at this
    simp at this
    linarith
  · by_contra hlt
    push Not at hlt
    obtain ⟨x, hx1, hx2⟩ := EReal.lt_iff_exists_real_btwn.1 hlt
    have : ¬ q ≤ (truncLaw b.law l u).real (Set.Iic x) := fun h => absurd ((hquant x).2 h) (not_le.2 hx2)
    apply this
    rw [truncLaw_real]
    have he : between l u ∩ Set.Iic x = between l u := by
      ext y
      simp only [between, Set.mem_inter_iff, Set.mem_ofPred_eq, Set.mem_Iic, and_iff_left_iff_imp]
      rintro ⟨_, h4⟩
      exact_mod_cast h4.trans hx1.le
    rw [he, div_self hm.ne']
    exact h1

/-- C12: probabilities outside [0, 1] give `nan`. -/
theorem truncated_ppf_nan (b : Base) (l u : EReal) (q : ℝ) :
    truncPpf b l u q = none ↔ q < 0 ∨ 1 < q := by
  unfold truncPpf
  dsimp only
  by_cases h : q < 0 ∨ q > 1
  · simp [h]
  · simp only [h, if_false]; simp

/-- C12: a random draw lies within the bounds as long as the underlying uniform number is not 0, and
the event "draw ≤ x" is the event "uniform number ≤ cdf x". -/
theorem truncated_rvs_partial (b : Base) (l u : EReal) (hl : b.discrete = true → Whole l)
    (hm : 0 < b.law.real (between l u)) (us : List ℝ) (hu : ∀ v ∈ us, 0 < v ∧ v < 1) :
    List.Forall₂ (fun v r => ∃ Q, r = some Q ∧ l ≤ Q ∧ Q ≤ u ∧
      ∀ x : ℝ, Q ≤ (x : EReal) ↔ v ≤ (truncLaw b.law l u).real (Set.Iic x))
      us (truncRvs b l u us) := by
  unfold truncRvs
  rw [List.forall₂_map_right_iff, List.forall₂_same]
  intro v hv
  obtain ⟨Q, h1, h2, h3, h4⟩ := truncated_ppf b l u hl hm v (hu v hv).1 (hu v hv).2.le
  exact ⟨Q, h1, h3, h4, h2⟩

/-- C12, what fails: on a discrete base with mass below the lower bound, `ppf(0)` (reachable from
`rvs`, whose uniform numbers include 0) lies strictly below the lower bound. -/
theorem truncated_ppf_zero_below (b : Base) (hd : b.discrete = true) (n : ℤ) (u : EReal)
    (hbelow : 0 < b.cdf (((n - 1 : ℤ) : ℝ) : EReal)) :
    ∃ Q, truncPpf b ((n : ℝ) : EReal) u 0 = some Q ∧ Q < ((n : ℝ) : EReal) := by
  have hadj : adjustLower b.discrete ((n : ℝ) : EReal) = (((n - 1 : ℤ) : ℝ) : EReal) := by
    simp only [adjustLower, hd, if_true]; push_cast; simp
  refine ⟨b.ppf (b.cdf (((n - 1 : ℤ) : ℝ) : EReal)), ?_, ?_⟩
  · unfold truncPpf
    simp [hadj]
  · have := (b.ppf_inverse _ hbelow (b.cdf_le_one _) ((n - 1 : ℤ) : ℝ)).2 (by rw [b.cdf_coe])
    refine lt_of_le_of_lt this ?_
    rw [EReal.coe_lt_coe_iff, Int.cast_lt]; omega

example : 0 < (dice 5).cdf (((2 - 1 : ℤ) : ℝ) : EReal) := by
  classical
  rw [Base.cdf_coe]
  show 0 < (diceLaw 5).real _
  rw [diceLaw_real]
  norm_num [Finset.sum_range_succ]

end Verif.Props
