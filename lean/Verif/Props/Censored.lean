import Verif.Lemmas.Censored

set_option linter.unusedSimpArgs false

/-!
# C14, C15, C16: `Censored`

The law of a censored distribution is the law of the clipped base variable.  The object cuts the
bounds the user gives to the base support (`censBounds`); the specification uses the user's bounds.
-/

namespace Verif.Props
open Verif MeasureTheory Verif.Spec Verif.Modifier

/-- the bounds kept by the object are in order -/
abbrev Proper (b : Base) (l u : EReal) : Prop := (censBounds b l u).1 < (censBounds b l u).2

/-- C14: on a discrete base, with a whole upper bound, `pdf` is the probability mass function of the
clipped variable. -/
theorem censored_mass (b : Base) (hd : b.discrete = true) (l u : EReal) (hp : Proper b l u)
    (hu : Whole (censBounds b l u).2) (x : ℝ) :
    censPdf b (censBounds b l u).1 (censBounds b l u).2 x = (censLaw b.law l u).real {x} := by
  rw [b.censLaw_cut hp.le]
  unfold Proper at hp
  generalize (censBounds b l u).1 = L at *
  generalize (censBounds b l u).2 = U at *
  rw [b.cens_point hp, censPdf_eq, hd, ← b.upper_tail hd hu, (b.discrete_law hd).2]
  by_cases h1 : (x : EReal) = L
  · have : (x : EReal) ≠ U := by rw [h1]; exact hp.ne
    simp [h1, hp.ne]
  · by_cases h2 : (x : EReal) = U
    · simp [h2, hp.ne']
    · simp [h1, h2]

/-- C14: and the masses at the integers add up to one when both bounds are whole. -/
theorem censored_sum_one (b : Base) (hd : b.discrete = true) (l u : EReal) (hp : Proper b l u)
    (hl : Whole (censBounds b l u).1) (hu : Whole (censBounds b l u).2) :
    HasSum (fun k : ℤ => censPdf b (censBounds b l u).1 (censBounds b l u).2 (k : ℝ)) 1 := by
  have hmass := censored_mass b hd l u hp hu
  have : IsProbabilityMeasure (censLaw b.law l u) :=
    Measure.isProbabilityMeasure_map (clip_meas l u).aemeasurable
  have hz : ∀ᵐ (y : ℝ) ∂censLaw b.law l u, ∃ k : ℤ, y = k := by
    rw [b.censLaw_cut hp.le]
    unfold censLaw
    rw [ae_map_iff (clip_meas _ _).aemeasurable]
    · filter_upwards [(b.discrete_law hd).1] with y ⟨k, hk⟩
      set L := (censBounds b l u).1
      set U := (censBounds b l u).2
      have hval : ∀ e : EReal, Whole e → ∃ k : ℤ, e.toReal = k := by
        rintro e (rfl | rfl | ⟨n, rfl⟩)
        · exact ⟨0, by simp⟩
        · exact ⟨0, by simp⟩
        · exact ⟨n, by simp⟩
      rcases le_total (y : EReal) L with h | h
      · rw [clip_low hp.le h]; exact hval L hl
      · rcases le_total (y : EReal) U with h' | h'
        · rw [clip_mid h h']; exact ⟨k, hk⟩
        · rw [clip_up hp.le h']; exact hval U hu
    · have : {x : ℝ | ∃ k : ℤ, x = k} = Set.range ((↑) : ℤ → ℝ) := by
        ext x; simp [eq_comm]
      rw [this]; exact (Set.countable_range _).measurableSet
  have hsum : ∑' k : ℤ, censLaw b.law l u {(k : ℝ)} = 1 := by
    rw [← measure_iUnion (fun i j hij => by simpa using hij) (fun k => measurableSet_singleton _)]
    rw [← (measure_univ : censLaw b.law l u Set.univ = 1)]
    apply measure_congr
    filter_upwards [hz] with y hy
    apply propext
    exact ⟨fun _ => trivial, fun _ => by
      obtain ⟨k, hk⟩ := hy
      exact Set.mem_iUnion.2 ⟨k, hk⟩⟩
  have h1 := ENNReal.hasSum_toReal (f := fun k : ℤ => censLaw b.law l u {(k : ℝ)})
    (by rw [hsum]; simp)
  rw [← ENNReal.tsum_toReal_eq (fun k => measure_ne_top _ _), hsum] at h1
  simp only [hmass, measureReal_def]
  simpa using h1

/-- C14: on a continuous base, `pdf` is the density of the clipped variable with respect to length
strictly between the bounds plus unit atoms at the finite bounds. -/
theorem censored_density (b : Base) (hd : b.discrete = false) (l u : EReal) (hp : Proper b l u) :
    IsDensity (censRef (censBounds b l u).1 (censBounds b l u).2) (censLaw b.law l u)
      (censPdf b (censBounds b l u).1 (censBounds b l u).2) := by
  obtain ⟨hpm, hlaw⟩ := b.continuous_law hd
  rw [b.censLaw_cut hp.le]
  unfold Proper at hp
  generalize (censBounds b l u).1 = L at *
  generalize (censBounds b l u).2 = U at *
  have hL : L ≠ ⊤ := ne_top_of_lt hp
  have hU : U ≠ ⊥ := ne_bot_of_gt hp
  have heq := censPdf_eq b L U
  simp only [hd, Bool.false_eq_true, if_false] at heq
  have h1 : ∀ e, 0 ≤ 1 - b.cdf e := fun e => by linarith [b.cdf_le_one e]
  refine ⟨fun x => ?_, ?_⟩
  · rw [heq]
    split_ifs
    · exact h1 _
    · exact b.cdf_nonneg _
    · exact le_rfl
    · exact b.pdf_nonneg _
  ext A hA
  have hmid : MeasurableSet {y : ℝ | L < (y : EReal) ∧ (y : EReal) < U} := (meas_gt L).inter (meas_lt U)
  -- the right-hand side
  have hatom : ∀ e : EReal, (Measure.withDensity (atomAt e) fun x => ENNReal.ofReal (censPdf b L U x)) A
      = if e = ⊤ ∨ e = ⊥ then 0
        else Set.indicator A (fun x => ENNReal.ofReal (censPdf b L U x)) e.toReal := by
    intro e
    unfold atomAt
    split_ifs with h
    · simp
    · rw [withDensity_apply _ hA, ← lintegral_indicator hA, lintegral_dirac]
  rw [censRef, withDensity_add_measure, withDensity_add_measure, Measure.add_apply,
    Measure.add_apply, hatom, hatom]
  have hcen : (Measure.withDensity (volume.restrict {y : ℝ | L < (y : EReal) ∧ (y : EReal) < U})
      fun x => ENNReal.ofReal (censPdf b L U x)) A
      = b.law ({y : ℝ | L < (y : EReal) ∧ (y : EReal) < U} ∩ A) := by
    rw [withDensity_apply _ hA, Measure.restrict_restrict hA, hlaw,
      withDensity_apply _ (hmid.inter hA), Set.inter_comm A]
    apply setLIntegral_congr_fun (hmid.inter hA)
    rintro x ⟨⟨ha, hb⟩, _⟩
    simp only [heq]
    rw [if_neg hb.ne, if_neg ha.ne', if_neg (by push Not; exact ⟨ha.le, hb.le⟩)]
  rw [hcen]
  -- the left-hand side
  unfold censLaw
  rw [Measure.map_apply (clip_meas L U) hA]
  have hsplit : b.law (clipFn L U ⁻¹' A)
      = b.law ({y : ℝ | L < (y : EReal) ∧ (y : EReal) < U} ∩ A)
        + b.law (clipFn L U ⁻¹' A ∩ {y : ℝ | (y : EReal) ≤ L})
        + b.law (clipFn L U ⁻¹' A ∩ {y : ℝ | U ≤ (y : EReal)}) := by
    have hS := (clip_meas L U) hA
    rw [← measure_inter_add_sdiff (clipFn L U ⁻¹' A) hmid]
    have e1 : clipFn L U ⁻¹' A ∩ {y : ℝ | L < (y : EReal) ∧ (y : EReal) < U}
        = {y : ℝ | L < (y : EReal) ∧ (y : EReal) < U} ∩ A := by
      ext y
      simp only [Set.mem_inter_iff, Set.mem_preimage, Set.mem_ofPred_eq]
      constructor
      · rintro ⟨h, h2, h3⟩
        rw [clip_mid h2.le h3.le] at h
        exact ⟨⟨h2, h3⟩, h⟩
      · rintro ⟨⟨h2, h3⟩, h⟩
        rw [clip_mid h2.le h3.le]
        exact ⟨h, h2, h3⟩
    have e2 : clipFn L U ⁻¹' A \ {y : ℝ | L < (y : EReal) ∧ (y : EReal) < U}
        = (clipFn L U ⁻¹' A ∩ {y : ℝ | (y : EReal) ≤ L})
          ∪ (clipFn L U ⁻¹' A ∩ {y : ℝ | U ≤ (y : EReal)}) := by
      ext y
      simp only [Set.mem_sdiff, Set.mem_preimage, Set.mem_ofPred_eq, Set.mem_union, Set.mem_inter_iff,
        not_and, not_lt, ← and_or_left]
      constructor
      · rintro ⟨h, h2⟩
        rcases le_or_gt (y : EReal) L with h3 | h3
        · exact ⟨h, Or.inl h3⟩
        · exact ⟨h, Or.inr (h2 h3)⟩
      · rintro ⟨h, h2 | h2⟩
        · exact ⟨h, fun h3 => absurd h3 (not_lt.2 h2)⟩
        · exact ⟨h, fun _ => h2⟩
    rw [e1, e2, measure_union _ (hS.inter (meas_ge U)), add_assoc]
    rw [Set.disjoint_left]
    rintro y ⟨_, ha⟩ ⟨_, hb⟩
    exact absurd (lt_of_le_of_lt ha hp) (not_lt.2 hb)
  rw [hsplit]
  congr 1
  · congr 1
    by_cases hb : L = ⊥
    · have : {y : ℝ | (y : EReal) ≤ L} = ∅ := by ext y; simp [hb]
      simp [hb, this]
    · rw [if_neg (by push Not; exact ⟨hL, hb⟩)]
      have hc : ((L.toReal : ℝ) : EReal) = L := EReal.coe_toReal hL hb
      have hv : censPdf b L U L.toReal = b.cdf L := by
        rw [heq, hc, if_neg hp.ne, if_pos rfl]
      by_cases hA' : L.toReal ∈ A
      · rw [Set.indicator_of_mem hA', hv]
        have : clipFn L U ⁻¹' A ∩ {y : ℝ | (y : EReal) ≤ L} = {y : ℝ | (y : EReal) ≤ L} := by
          ext y
          simp only [Set.mem_inter_iff, Set.mem_preimage, Set.mem_ofPred_eq, and_iff_right_iff_imp]
          intro h; rw [clip_low hp.le h]; exact hA'
        rw [this, Base.cdf, ofReal_measureReal]
      · rw [Set.indicator_of_notMem hA']
        have : clipFn L U ⁻¹' A ∩ {y : ℝ | (y : EReal) ≤ L} = ∅ := by
          ext y
          simp only [Set.mem_inter_iff, Set.mem_preimage, Set.mem_ofPred_eq, Set.mem_empty_iff_false,
            iff_false, not_and]
          intro h h'; rw [clip_low hp.le h'] at h; exact hA' h
        rw [this]; simp
  · by_cases hb : U = ⊤
    · have : {y : ℝ | U ≤ (y : EReal)} = ∅ := by ext y; simp [hb]
      simp [hb, this]
    · rw [if_neg (by push Not; exact ⟨hb, hU⟩)]
      have hc : ((U.toReal : ℝ) : EReal) = U := EReal.coe_toReal hb hU
      have hv : censPdf b L U U.toReal = b.law.real {y : ℝ | U ≤ (y : EReal)} := by
        rw [heq, hc, if_pos rfl, b.upper_tail_cont hd]
      by_cases hA' : U.toReal ∈ A
      · rw [Set.indicator_of_mem hA', hv]
        have : clipFn L U ⁻¹' A ∩ {y : ℝ | U ≤ (y : EReal)} = {y : ℝ | U ≤ (y : EReal)} := by
          ext y
          simp only [Set.mem_inter_iff, Set.mem_preimage, Set.mem_ofPred_eq, and_iff_right_iff_imp]
          intro h; rw [clip_up hp.le h]; exact hA'
        rw [this, ofReal_measureReal]
      · rw [Set.indicator_of_notMem hA']
        have : clipFn L U ⁻¹' A ∩ {y : ℝ | U ≤ (y : EReal)} = ∅ := by
          ext y
          simp only [Set.mem_inter_iff, Set.mem_preimage, Set.mem_ofPred_eq, Set.mem_empty_iff_false,
            iff_false, not_and]
          intro h h'; rw [clip_up hp.le h'] at h; exact hA' h
        rw [this]; simp

/-- C14, what fails: an upper bound that is not an integer on a discrete base counts the last point
twice.  Base uniform on {0, 1, 2}, upper bound 3/2: the masses at 0, 1 and 3/2 add to 4/3. -/
theorem censored_noninteger_upper :
    ∃ (b : Base) (u : EReal) (s : Finset ℝ), Proper b ⊥ u ∧
      1 < ∑ x ∈ s, censPdf b (censBounds b ⊥ u).1 (censBounds b ⊥ u).2 x := by
  classical
  refine ⟨dice 2, ((3 / 2 : ℝ) : EReal), {0, 1, 3 / 2}, ?_, ?_⟩
  all_goals
    have hb : censBounds (dice 2) ⊥ ((3 / 2 : ℝ) : EReal)
        = (((0 : ℝ) : EReal), ((3 / 2 : ℝ) : EReal)) := by
      show (max (0 : EReal) ⊥, min (((2 : ℕ) : ℝ) : EReal) ((3 / 2 : ℝ) : EReal)) = _
      rw [max_eq_left bot_le, min_eq_right]
      · rfl
      · rw [EReal.coe_le_coe_iff]; norm_num
  · unfold Proper; rw [hb]
    show ((0 : ℝ) : EReal) < _
    rw [EReal.coe_lt_coe_iff]; norm_num
  · rw [hb]
    rw [Finset.sum_insert (by norm_num), Finset.sum_insert (by norm_num), Finset.sum_singleton]
    have hdis : (dice 2).discrete = true := rfl
    have hU1 : ((3 / 2 : ℝ) : EReal) - 1 = ((1 / 2 : ℝ) : EReal) := by
      rw [show ((3 / 2 : ℝ) : EReal) - 1 = ((3 / 2 - 1 : ℝ) : EReal) by push_cast; rfl]
      norm_num
    have hpdf : (dice 2).pdf 1 = 1 / 3 := by
      show (diceLaw 2).real _ = _
      rw [diceLaw_real]; norm_num [Finset.sum_range_succ]
    have hc0 : (dice 2).cdf ((0 : ℝ) : EReal) = 1 / 3 := by
      rw [Base.cdf_coe]; show (diceLaw 2).real _ = _
      rw [diceLaw_real]; norm_num [Finset.sum_range_succ]
    have hc1 : (dice 2).cdf ((1 / 2 : ℝ) : EReal) = 1 / 3 := by
      rw [Base.cdf_coe]; show (diceLaw 2).real _ = _
      rw [diceLaw_real]; norm_num [Finset.sum_range_succ]
    simp only [censPdf_eq, hdis, if_true, hU1, EReal.coe_eq_coe_iff, EReal.coe_lt_coe_iff, gt_iff_lt,
      hc0, hc1, hpdf]
    norm_num

/-- C14, what fails: with equal bounds the whole mass should sit at the bound, but the code reports
only the upper tail. -/
theorem censored_equal_bounds :
    ∃ (b : Base) (l : EReal), (censBounds b l l).1 = (censBounds b l l).2 ∧ Whole l ∧
      ∃ x : ℝ, censPdf b (censBounds b l l).1 (censBounds b l l).2 x ≠ (censLaw b.law l l).real {x} := by
  classical
  have hb : censBounds (dice 2) ((1 : ℝ) : EReal) ((1 : ℝ) : EReal)
      = (((1 : ℝ) : EReal), ((1 : ℝ) : EReal)) := by
    show (max (0 : EReal) _, min (((2 : ℕ) : ℝ) : EReal) _) = _
    rw [max_eq_right, min_eq_right]
    · rw [EReal.coe_le_coe_iff]; norm_num
    · norm_num
  refine ⟨dice 2, ((1 : ℝ) : EReal), by rw [hb], Or.inr (Or.inr ⟨1, by norm_num⟩), 1, ?_⟩
  rw [hb, censPdf_eq, if_pos rfl]
  have : censLaw (dice 2).law ((1 : ℝ) : EReal) ((1 : ℝ) : EReal) = Measure.dirac 1 := by
    have : clipFn ((1 : ℝ) : EReal) ((1 : ℝ) : EReal) = fun _ => 1 := by
      ext y
      rcases le_total (y : EReal) ((1 : ℝ) : EReal) with h | h
      · rw [clip_low le_rfl h]; rfl
      · rw [clip_up le_rfl h]; rfl
    rw [censLaw, this, Measure.map_const]; simp
  rw [this]
  have hdis : (dice 2).discrete = true := rfl
  have hU1 : ((1 : ℝ) : EReal) - 1 = ((0 : ℝ) : EReal) := by
      rw [show ((1 : ℝ) : EReal) - 1 = ((1 - 1 : ℝ) : EReal) by push_cast; rfl]
      norm_num
  have hc0 : (dice 2).cdf ((0 : ℝ) : EReal) = 1 / 3 := by
      rw [Base.cdf_coe]; show (diceLaw 2).real _ = _
      rw [diceLaw_real]; norm_num [Finset.sum_range_succ]
  simp only [hdis, if_true, hU1, hc0]
  rw [measureReal_def, Measure.dirac_apply]
  norm_num

/-- the hypotheses are met -/
example : Proper (dice 5) ((1 : ℝ) : EReal) ((3 : ℝ) : EReal) ∧
    Whole (censBounds (dice 5) ((1 : ℝ) : EReal) ((3 : ℝ) : EReal)).2 := by
  have hb : censBounds (dice 5) ((1 : ℝ) : EReal) ((3 : ℝ) : EReal)
      = (((1 : ℝ) : EReal), ((3 : ℝ) : EReal)) := by
    show (max (0 : EReal) _, min (((5 : ℕ) : ℝ) : EReal) _) = _
    rw [max_eq_right, min_eq_right]
    · rw [EReal.coe_le_coe_iff]; norm_num
    · norm_num
  unfold Proper
  rw [hb]
  exact ⟨by rw [EReal.coe_lt_coe_iff]; norm_num, Or.inr (Or.inr ⟨3, by norm_num⟩)⟩

example : Proper (unif (-1) 1 (by norm_num)) 0 ⊤ := by
  show max ((-1 : ℝ) : EReal) 0 < min ((1 : ℝ) : EReal) ⊤
  rw [max_eq_right (by norm_num), min_eq_left le_top]
  norm_num

/-! ## C15 -/

/-- C15: the cdf is the cdf of the clipped variable exactly when the query point is not the upper
bound, or the base already puts all its mass below it.  (The full claim, "at every point", is false
at the upper bound.) -/
theorem censored_cdf_partial (b : Base) (l u : EReal)
    (hp : (censBounds b l u).1 ≤ (censBounds b l u).2)
    (hL : (censBounds b l u).1 ≠ ⊤) (hU : (censBounds b l u).2 ≠ ⊥) (x : ℝ) :
    censCdf b (censBounds b l u).1 (censBounds b l u).2 x = (censLaw b.law l u).real (Set.Iic x) ↔
      ((x : EReal) ≠ (censBounds b l u).2 ∨ b.cdf x = 1) := by
  rw [b.censLaw_cut hp]
  set L := (censBounds b l u).1
  set U := (censBounds b l u).2
  rw [b.cens_Iic hp hL hU, censCdf]
  by_cases h1 : (x : EReal) < L
  · simp [h1, (lt_of_lt_of_le h1 hp).ne]
  · rw [if_neg h1, if_neg h1]
    rcases lt_trichotomy (x : EReal) U with h2 | h2 | h2
    · simp [not_lt.2 h2.le, not_le.2 h2, h2.ne]
    · simp [h2]
    · simp [h2, h2.le, h2.ne']

/-- C15, what fails: at a finite upper bound with mass above it, the reported cumulative probability
is less than one. -/
theorem censored_cdf_upper_below_one :
    ∃ (b : Base) (u : ℝ), Proper b ⊥ u ∧
      censCdf b (censBounds b ⊥ u).1 (censBounds b ⊥ u).2 u < (censLaw b.law ⊥ u).real (Set.Iic u) := by
  classical
  have hb : censBounds (dice 2) ⊥ ((1 : ℝ) : EReal)
      = (((0 : ℝ) : EReal), ((1 : ℝ) : EReal)) := by
    show (max (0 : EReal) _, min (((2 : ℕ) : ℝ) : EReal) _) = _
    rw [max_eq_left bot_le, min_eq_right]
    · rfl
    · rw [EReal.coe_le_coe_iff]; norm_num
  have hp : Proper (dice 2) ⊥ ((1 : ℝ) : EReal) := by
    unfold Proper; rw [hb]
    rw [EReal.coe_lt_coe_iff]; norm_num
  refine ⟨dice 2, 1, hp, ?_⟩
  rw [Base.censLaw_cut _ hp.le, Base.cens_Iic _ hp.le (ne_top_of_lt hp) (ne_bot_of_gt hp), hb,
    censCdf]
  simp only [lt_irrefl, le_refl, if_true, gt_iff_lt, if_false]
  have h10 : ¬ ((1 : ℝ) : EReal) < ((0 : ℝ) : EReal) := by rw [EReal.coe_lt_coe_iff]; norm_num
  rw [if_neg h10, if_neg h10, Base.cdf_coe]
  show (diceLaw 2).real _ < _
  rw [diceLaw_real]
  norm_num [Finset.sum_range_succ]

/-! ## C16 -/

theorem clip_comm {L U : EReal} (h : L ≤ U) (v : EReal) : clip L U v = max L (min U v) := by
  unfold clip
  rcases le_total v L with h1 | h1
  · rw [max_eq_right h1, min_eq_right h, min_eq_right (h1.trans h), max_eq_left h1]
  · rw [max_eq_left h1]
    exact (max_eq_right (le_min h h1)).symm

/-- C16: the ppf is the quantile of the clipped variable, and lies within the bounds. -/
theorem censored_ppf (b : Base) (l u : EReal)
    (hp : (censBounds b l u).1 ≤ (censBounds b l u).2)
    (hL : (censBounds b l u).1 ≠ ⊤) (hU : (censBounds b l u).2 ≠ ⊥) (q : ℝ) (h0 : 0 < q) (h1 : q ≤ 1) :
    IsQuantile (censLaw b.law l u) q (censPpf b (censBounds b l u).1 (censBounds b l u).2 q) ∧
      l ≤ censPpf b (censBounds b l u).1 (censBounds b l u).2 q ∧
      censPpf b (censBounds b l u).1 (censBounds b l u).2 q ≤ u := by
  have hlL : l ≤ (censBounds b l u).1 := le_max_right _ _
  have hUu : (censBounds b l u).2 ≤ u := min_le_right _ _
  rw [b.censLaw_cut hp]
  set L := (censBounds b l u).1
  set U := (censBounds b l u).2
  unfold censPpf
  rw [clip_comm hp]
  refine ⟨fun x => ?_, hlL.trans (le_max_left _ _), (max_le hp (min_le_left _ _)).trans hUu⟩
  rw [b.cens_Iic hp hL hU, max_le_iff, min_le_iff, b.ppf_inverse q h0 h1, ← b.cdf_coe]
  by_cases hx : (x : EReal) < L
  · simp [hx, not_le.2 hx, h0]
  · by_cases hx2 : U ≤ (x : EReal)
    · simp [hx, hx2, not_lt.1 hx, h1]
    · simp [hx, hx2, not_lt.1 hx]

/-- C16: the median is the quantile of level 1/2. -/
theorem censored_median (b : Base) (l u : EReal)
    (hp : (censBounds b l u).1 ≤ (censBounds b l u).2)
    (hL : (censBounds b l u).1 ≠ ⊤) (hU : (censBounds b l u).2 ≠ ⊥) :
    IsQuantile (censLaw b.law l u) (1 / 2)
      (censMedian b (censBounds b l u).1 (censBounds b l u).2) := by
  have := (censored_ppf b l u hp hL hU (1 / 2) (by norm_num) (by norm_num)).1
  unfold censMedian
  rw [show (0.5 : ℝ) = 1 / 2 by norm_num]
  exact this

/-- C16: random draws are the base draws clipped to the user's bounds: whatever finite base draws
come out of the base support, each result is the base draw if it lies within the bounds, and the
nearer bound otherwise. -/
theorem censored_rvs (b : Base) (l u : EReal)
    (hp : (censBounds b l u).1 ≤ (censBounds b l u).2) (xs : List ℝ)
    (hx : ∀ x ∈ xs, b.lo ≤ (x : EReal) ∧ (x : EReal) ≤ b.hi) :
    List.Forall₂ (fun (x : ℝ) (r : EReal) =>
        (l ≤ (x : EReal) → (x : EReal) ≤ u → r = x) ∧ ((x : EReal) < l → r = l) ∧
          (u < (x : EReal) → r = u))
      xs (censRvs (censBounds b l u).1 (censBounds b l u).2 xs) := by
  unfold censRvs
  rw [List.forall₂_map_right_iff, List.forall₂_same]
  intro x hxs
  obtain ⟨h1, h2⟩ := hx x hxs
  rw [clip_comm hp]
  have hlo : b.lo ≤ u := (le_max_left _ _).trans (hp.trans (min_le_right _ _))
  have hhi : l ≤ b.hi := (le_max_right _ _).trans (hp.trans (min_le_left _ _))
  have hlu : l ≤ u := (le_max_right _ _).trans (hp.trans (min_le_right _ _))
  simp only [censBounds]
  refine ⟨fun a c => ?_, fun a => ?_, fun a => ?_⟩
  · rw [min_eq_right (le_min h2 c), max_eq_right (max_le h1 a)]
  · rw [min_eq_right (le_min h2 (a.le.trans hlu)), max_eq_left, max_eq_right (h1.trans a.le)]
    exact a.le.trans (le_max_right _ _)
  · rw [min_eq_left (le_trans (min_le_right _ _) a.le), max_eq_right (show max b.lo l ≤ min b.hi u from hp)]
    exact min_eq_right (a.le.trans h2)

end Verif.Props
