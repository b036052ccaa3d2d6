import Verif.Lemmas.CensoredMoments

set_option linter.unusedSimpArgs false

/-!
# C17: moments of `Censored`

The code obtains the moments of the truncated distribution numerically; here they are assumed exact
(`ExactMoments`), and the question is whether the code combines them into the moments of the clipped
variable.
-/

namespace Verif.Props
open Verif MeasureTheory Verif.Spec Verif.Modifier

/-- C17: the reported mean is the mean of the clipped variable. -/
theorem censored_mean (b : Base) (l u : EReal)
    (hp : (censBounds b l u).1 ≤ (censBounds b l u).2)
    (hL : (censBounds b l u).1 ≠ ⊤) (hU : (censBounds b l u).2 ≠ ⊥)
    (hw : b.discrete = true → Whole (censBounds b l u).1)
    (hpos : 0 < b.law.real (between (censBounds b l u).1 (censBounds b l u).2))
    (hi : IntegrableOn (fun y => y) (between (censBounds b l u).1 (censBounds b l u).2) b.law)
    (t : TruncMoments)
    (ht : t.mean = mean (truncLaw b.law (censBounds b l u).1 (censBounds b l u).2)) :
    censMean b (censBounds b l u).1 (censBounds b l u).2 t = mean (censLaw b.law l u) := by
  rw [b.censLaw_cut hp]
  generalize (censBounds b l u).1 = L at *
  generalize (censBounds b l u).2 = U at *
  unfold censMean
  conv_rhs => unfold mean
  rw [b.integral_clip hp hw (fun y => y) measurable_id hi hpos, ht,
    xprody_low b hL (fun y => y) L (fun h => (EReal.coe_toReal hL h).symm),
    xprody_up b hU (fun y => y) U (fun h => (EReal.coe_toReal h hU).symm)]
  rfl

/-- C17: the reported variance is the variance of the clipped variable. -/
theorem censored_var (b : Base) (l u : EReal)
    (hp : (censBounds b l u).1 ≤ (censBounds b l u).2)
    (hL : (censBounds b l u).1 ≠ ⊤) (hU : (censBounds b l u).2 ≠ ⊥)
    (hw : b.discrete = true → Whole (censBounds b l u).1)
    (hpos : 0 < b.law.real (between (censBounds b l u).1 (censBounds b l u).2))
    (hi : IntegrableOn (fun y => y) (between (censBounds b l u).1 (censBounds b l u).2) b.law)
    (hi2 : IntegrableOn (fun y => y ^ 2) (between (censBounds b l u).1 (censBounds b l u).2) b.law)
    (t : TruncMoments)
    (ht : t.mean = mean (truncLaw b.law (censBounds b l u).1 (censBounds b l u).2))
    (hv : t.var = central (truncLaw b.law (censBounds b l u).1 (censBounds b l u).2) 2) :
    censVar b (censBounds b l u).1 (censBounds b l u).2 t = central (censLaw b.law l u) 2 := by
  have hmean := censored_mean b l u hp hL hU hw hpos hi t ht
  rw [b.censLaw_cut hp] at hmean ⊢
  generalize (censBounds b l u).1 = L at *
  generalize (censBounds b l u).2 = U at *
  unfold censVar
  dsimp only
  rw [hmean]
  generalize hm : mean (censLaw b.law L U) = m
  have key : ∀ c : ℝ, IntegrableOn (fun y => (y - c) ^ 2) (between L U) b.law := by
    intro c
    have : (fun y : ℝ => (y - c) ^ 2) = fun y => (y ^ 2 - 2 * c * y) + c ^ 2 := by ext y; ring
    rw [this]
    exact (hi2.sub (hi.const_mul (2 * c))).add (integrableOn_const (measure_ne_top _ _))
  conv_rhs => unfold central
  rw [hm, b.integral_clip hp hw (fun y => (y - m) ^ 2) (by fun_prop) (key m) hpos]
  have hP : IsProbabilityMeasure (truncLaw b.law L U) := by
    apply ProbabilityTheory.cond_isProbabilityMeasure
    intro h; rw [measureReal_def, h] at hpos; simp at hpos
  have toI : ∀ f : ℝ → ℝ, IntegrableOn f (between L U) b.law → Integrable f (truncLaw b.law L U) := by
    intro f hf
    unfold truncLaw ProbabilityTheory.cond
    apply Integrable.smul_measure hf
    rw [ENNReal.inv_ne_top]
    intro h; rw [measureReal_def, h] at hpos; simp at hpos
  have hshift : ∫ y, (y - m) ^ 2 ∂(truncLaw b.law L U) = t.var + (t.mean - m) ^ 2 := by
    have : (fun y : ℝ => (y - m) ^ 2)
        = fun y => ((y - t.mean) ^ 2 + (2 * (t.mean - m)) * y)
            + ((t.mean - m) ^ 2 - 2 * (t.mean - m) * t.mean) := by
      ext y; ring
    have i1 := toI _ (key t.mean)
    have i2 : Integrable (fun y : ℝ => 2 * (t.mean - m) * y) (truncLaw b.law L U) :=
      (toI _ hi).const_mul _
    have i12 : Integrable (fun y : ℝ => (y - t.mean) ^ 2 + 2 * (t.mean - m) * y)
      (truncLaw b.law L U) := i1.add i2
    rw [this, integral_add i12 (integrable_const _),
      integral_add i1 i2, integral_const_mul, integral_const]
    have e1 : ∫ y, (y - t.mean) ^ 2 ∂(truncLaw b.law L U) = t.var := by rw [hv, central, ht]
    have e2 : ∫ y, y ∂(truncLaw b.law L U) = t.mean := by rw [ht]; rfl
    rw [e1, e2]
    simp
  rw [hshift,
    xprody_low b hL (fun y => (y - m) ^ 2) (powDiff L m 2) (fun h => by simp [powDiff, hL, h]),
    xprody_up b hU (fun y => (y - m) ^ 2) (powDiff U m 2) (fun h => by simp [powDiff, hU, h])]

/-- C17: skewness and excess kurtosis are right when the bounds clip nothing.  The full claim ("for
all bounds") is false, see `censored_skewness_wrong` and `censored_kurtosis_wrong`. -/
theorem censored_skew_kurt_partial (b : Base) (l u : EReal)
    (hp : (censBounds b l u).1 ≤ (censBounds b l u).2)
    (hw : b.discrete = true → Whole (censBounds b l u).1)
    (hlow : b.law.real {y : ℝ | (y : EReal) < (censBounds b l u).1} = 0)
    (hup : b.law.real {y : ℝ | (censBounds b l u).2 < (y : EReal)} = 0)
    (t : TruncMoments)
    (ht : ExactMoments t (truncLaw b.law (censBounds b l u).1 (censBounds b l u).2)) :
    censSkewness b (censBounds b l u).1 (censBounds b l u).2 t = skew (censLaw b.law l u) ∧
    censKurtosis b (censBounds b l u).1 (censBounds b l u).2 t = exKurt (censLaw b.law l u) := by
  rw [b.censLaw_cut hp]
  generalize (censBounds b l u).1 = L at *
  generalize (censBounds b l u).2 = U at *
  have e1 : censPLow b L = 0 := by rw [b.p_low hw, hlow]
  have e2 : censPUp b U = 0 := by rw [b.p_up, hup]
  have e3 : censPInt b L U = 1 := by unfold censPInt; rw [e1, e2]; ring
  have xz : ∀ e, xprody e 0 = 0 := by intro e; unfold xprody; simp
  have hm : censMean b L U t = t.mean := by
    unfold censMean; rw [e1, e2, e3, xz, xz]; ring
  have hae : ∀ᵐ (y : ℝ) ∂b.law, y ∈ between L U := by
    have h1 : ∀ᵐ (y : ℝ) ∂b.law, ¬ (y : EReal) < L := by
      rw [ae_iff]; simpa [measureReal_eq_zero_iff] using hlow
    have h2 : ∀ᵐ (y : ℝ) ∂b.law, ¬ U < (y : EReal) := by
      rw [ae_iff]; simpa [measureReal_eq_zero_iff] using hup
    filter_upwards [h1, h2] with y h1 h2
    exact ⟨not_lt.1 h1, not_lt.1 h2⟩
  have hlaw : censLaw b.law L U = truncLaw b.law L U := by
    have hc : clipFn L U =ᵐ[b.law] id := by
      filter_upwards [hae] with y hy
      exact clip_mid hy.1 hy.2
    rw [censLaw, Measure.map_congr hc, Measure.map_id, truncLaw, ProbabilityTheory.cond]
    have : b.law (between L U) = 1 := by
      rw [← (measure_univ : b.law Set.univ = 1)]
      apply measure_congr
      filter_upwards [hae] with y hy
      exact propext ⟨fun _ => trivial, fun _ => hy⟩
    rw [this, Measure.restrict_eq_self_of_ae_mem hae]
    simp
  rw [hlaw, ← ht.skewness, ← ht.kurtosis]
  unfold censSkewness censKurtosis
  simp only [hm, e1, e2, e3, xz]
  constructor <;> ring

/-! ### what fails -/

/-- base uniform on {0,1,2,3} censored to [0,2]; `witness` are the exact moments of the truncated law
(uniform on {0,1,2}) -/
noncomputable def witness : TruncMoments := ⟨1, 2 / 3, 0, -3 / 2⟩

theorem witness_bounds :
    censBounds (dice 3) 0 ((2 : ℝ) : EReal) = (((0 : ℝ) : EReal), ((2 : ℝ) : EReal)) := by
  show (max (0 : EReal) _, min (((3 : ℕ) : ℝ) : EReal) _) = _
  rw [max_self, min_eq_right]
  · rfl
  · rw [EReal.coe_le_coe_iff]; norm_num

open Classical in
theorem witness_trunc (f : ℝ → ℝ) :
    ∫ y, f y ∂(truncLaw (dice 3).law ((0 : ℝ) : EReal) ((2 : ℝ) : EReal))
      = (f 0 + f 1 + f 2) / 3 := by
  rw [integral_trunc]
  show (∫ y in between _ _, f y ∂(diceLaw 3)) / (diceLaw 3).real _ = _
  rw [dice_setIntegral _ _ _ (meas_between _ _), diceLaw_real]
  simp only [between, Set.mem_ofPred_eq, EReal.coe_le_coe_iff, Finset.sum_range_succ,
    Finset.sum_range_zero]
  norm_num
  ring

theorem witness_exact :
    ExactMoments witness (truncLaw (dice 3).law ((0 : ℝ) : EReal) ((2 : ℝ) : EReal)) := by
  have h1 : mean (truncLaw (dice 3).law ((0 : ℝ) : EReal) ((2 : ℝ) : EReal)) = 1 := by
    unfold mean; rw [witness_trunc]; norm_num
  have h2 : ∀ k, central (truncLaw (dice 3).law ((0 : ℝ) : EReal) ((2 : ℝ) : EReal)) k
      = ((-1) ^ k + 0 ^ k + 1) / 3 := by
    intro k
    unfold central; rw [h1, witness_trunc]; norm_num
  refine ⟨h1.symm, ?_, ?_, ?_⟩
  · rw [h2]; norm_num [witness]
  · unfold skew; rw [h2]; norm_num [witness]
  · unfold exKurt; rw [h2, h2]
    rw [show Real.sqrt (((-1 : ℝ) ^ 2 + 0 ^ 2 + 1) / 3) ^ 4
      = (Real.sqrt (((-1 : ℝ) ^ 2 + 0 ^ 2 + 1) / 3) ^ 2) ^ 2 by ring, Real.sq_sqrt (by norm_num)]
    norm_num [witness]

open Classical in
theorem witness_p :
    censPLow (dice 3) ((0 : ℝ) : EReal) = 0 ∧ censPUp (dice 3) ((2 : ℝ) : EReal) = 1 / 4 ∧
      censPInt (dice 3) ((0 : ℝ) : EReal) ((2 : ℝ) : EReal) = 3 / 4 := by
  have a : censPLow (dice 3) ((0 : ℝ) : EReal) = 0 := by
    rw [Base.p_low _ (fun _ => Or.inr (Or.inr ⟨0, by norm_num⟩))]
    show (diceLaw 3).real _ = _
    rw [diceLaw_real]
    simp only [Set.mem_ofPred_eq, EReal.coe_lt_coe_iff, Finset.sum_range_succ,
      Finset.sum_range_zero]
    norm_num
  have c : censPUp (dice 3) ((2 : ℝ) : EReal) = 1 / 4 := by
    rw [Base.p_up]
    show (diceLaw 3).real _ = _
    rw [diceLaw_real]
    simp only [Set.mem_ofPred_eq, EReal.coe_lt_coe_iff, Finset.sum_range_succ,
      Finset.sum_range_zero]
    norm_num
  refine ⟨a, c, ?_⟩
  unfold censPInt; rw [a, c]; norm_num

theorem witness_cens (f : ℝ → ℝ) (hf : Measurable f) :
    ∫ y, f y ∂(censLaw (dice 3).law 0 ((2 : ℝ) : EReal)) = (f 0 + f 1 + 2 * f 2) / 4 := by
  have hb := witness_bounds
  have h02 : ((0 : ℝ) : EReal) ≤ ((2 : ℝ) : EReal) := by rw [EReal.coe_le_coe_iff]; norm_num
  have hp : (censBounds (dice 3) 0 ((2 : ℝ) : EReal)).1 ≤ (censBounds (dice 3) 0 ((2 : ℝ) : EReal)).2 := by
    rw [hb]; exact h02
  rw [Base.censLaw_cut _ hp, hb]
  obtain ⟨p1, p2, p3⟩ := witness_p
  have hW : (dice 3).discrete = true → Whole ((0 : ℝ) : EReal) :=
    fun _ => Or.inr (Or.inr ⟨0, by norm_num⟩)
  have hpos : 0 < (dice 3).law.real (between ((0 : ℝ) : EReal) ((2 : ℝ) : EReal)) := by
    rw [← Base.p_int _ h02 hW, p3]; norm_num
  rw [Base.integral_clip _ h02 hW f hf (dice_integrable 3 f _) hpos, witness_trunc, p1, p2, p3]
  simp only [EReal.toReal_coe]
  ring

theorem witness_values :
    mean (censLaw (dice 3).law 0 ((2 : ℝ) : EReal)) = 5 / 4 ∧
    (∀ k, central (censLaw (dice 3).law 0 ((2 : ℝ) : EReal)) k
      = ((-5 / 4) ^ k + (-1 / 4) ^ k + 2 * (3 / 4) ^ k) / 4) ∧
    censMean (dice 3) ((0 : ℝ) : EReal) ((2 : ℝ) : EReal) witness = 5 / 4 ∧
    censVar (dice 3) ((0 : ℝ) : EReal) ((2 : ℝ) : EReal) witness = 11 / 16 := by
  obtain ⟨p1, p2, p3⟩ := witness_p
  have m1 : mean (censLaw (dice 3).law 0 ((2 : ℝ) : EReal)) = 5 / 4 := by
    unfold mean; rw [witness_cens (fun y => y) measurable_id]; norm_num
  have m2 : censMean (dice 3) ((0 : ℝ) : EReal) ((2 : ℝ) : EReal) witness = 5 / 4 := by
    unfold censMean; rw [p1, p2, p3]; simp [xprody, witness]; norm_num
  refine ⟨m1, fun k => ?_, m2, ?_⟩
  · unfold central; rw [m1, witness_cens _ (by fun_prop)]; norm_num
  · unfold censVar; rw [m2, p1, p2, p3]; simp only [xprody_coe, powDiff_coe, witness]; norm_num

/-- C17, what fails: with exact truncated moments, the reported skewness has the wrong sign. -/
theorem censored_skewness_wrong :
    ∃ (b : Base) (l u : EReal) (t : TruncMoments),
      (censBounds b l u).1 < (censBounds b l u).2 ∧
      ExactMoments t (truncLaw b.law (censBounds b l u).1 (censBounds b l u).2) ∧
      skew (censLaw b.law l u) < 0 ∧
      0 < censSkewness b (censBounds b l u).1 (censBounds b l u).2 t := by
  obtain ⟨p1, p2, p3⟩ := witness_p
  obtain ⟨m1, m2, m3, m4⟩ := witness_values
  refine ⟨dice 3, 0, ((2 : ℝ) : EReal), witness, ?_, ?_, ?_, ?_⟩
  · rw [witness_bounds]; rw [EReal.coe_lt_coe_iff]; norm_num
  · rw [witness_bounds]; exact witness_exact
  · unfold skew
    rw [m2, m2]
    apply div_neg_of_neg_of_pos
    · norm_num
    · have : 0 < Real.sqrt (((-5 / 4 : ℝ) ^ 2 + (-1 / 4) ^ 2 + 2 * (3 / 4) ^ 2) / 4) :=
        Real.sqrt_pos.2 (by norm_num)
      positivity
  · rw [witness_bounds]
    unfold censSkewness
    dsimp only
    rw [m3, m4, p1, p2, p3]
    simp only [xprody_coe, powStd_coe, witness]
    have a0 : 0 < Real.sqrt (11 / 16) := Real.sqrt_pos.2 (by norm_num)
    have c0 : 0 < Real.sqrt (2 / 3) := Real.sqrt_pos.2 (by norm_num)
    have a2 : Real.sqrt (11 / 16) ^ 2 = 11 / 16 := Real.sq_sqrt (by norm_num)
    have c2 : Real.sqrt (2 / 3) ^ 2 = 2 / 3 := Real.sq_sqrt (by norm_num)
    have hac : Real.sqrt (11 / 16) < 2 * Real.sqrt (2 / 3) := by nlinarith
    have h4 : 0 < (3 / 4 / Real.sqrt (11 / 16)) ^ 3 * (1 / 4)
        + ((1 - 5 / 4) / Real.sqrt (2 / 3)) ^ 3 * (3 / 4) := by
      have h3 : 3 / 8 / Real.sqrt (2 / 3) < 3 / 4 / Real.sqrt (11 / 16) := by
        rw [div_lt_div_iff₀ c0 a0]; nlinarith
      have h5 : (3 / 8 / Real.sqrt (2 / 3)) ^ 3 < (3 / 4 / Real.sqrt (11 / 16)) ^ 3 :=
        pow_lt_pow_left₀ h3 (by positivity) (by norm_num)
      have h6 : ((1 - 5 / 4) / Real.sqrt (2 / 3)) ^ 3
          = - (8 / 27) * (3 / 8 / Real.sqrt (2 / 3)) ^ 3 := by
        field_simp; norm_num
      rw [h6]
      have : 0 < (3 / 8 / Real.sqrt (2 / 3)) ^ 3 := by positivity
      nlinarith
    have h7 : (2 - 5 / 4 : ℝ) = 3 / 4 := by norm_num
    rw [h7]
    linarith

/-- C17, what fails: with exact truncated moments, the reported excess kurtosis is too small. -/
theorem censored_kurtosis_wrong :
    ∃ (b : Base) (l u : EReal) (t : TruncMoments),
      (censBounds b l u).1 < (censBounds b l u).2 ∧
      ExactMoments t (truncLaw b.law (censBounds b l u).1 (censBounds b l u).2) ∧
      censKurtosis b (censBounds b l u).1 (censBounds b l u).2 t < exKurt (censLaw b.law l u) := by
  obtain ⟨p1, p2, p3⟩ := witness_p
  obtain ⟨m1, m2, m3, m4⟩ := witness_values
  refine ⟨dice 3, 0, ((2 : ℝ) : EReal), witness, ?_, ?_, ?_⟩
  · rw [witness_bounds]; rw [EReal.coe_lt_coe_iff]; norm_num
  · rw [witness_bounds]; exact witness_exact
  · rw [witness_bounds]
    unfold censKurtosis exKurt
    dsimp only
    rw [m2, m2, m3, m4, p1, p2, p3]
    have q1 : ∀ x : ℝ, 0 ≤ x → Real.sqrt x ^ 4 = x ^ 2 := by
      intro x hx
      rw [show Real.sqrt x ^ 4 = (Real.sqrt x ^ 2) ^ 2 by ring, Real.sq_sqrt hx]
    rw [q1 _ (by norm_num)]
    simp only [xprody_coe, powStd_coe, witness, div_pow]
    rw [q1 _ (by norm_num), q1 _ (by norm_num)]
    norm_num

/-- the hypotheses of the positive theorems are met by this same base -/
example : (0 : ℝ) < (dice 3).law.real (between ((0 : ℝ) : EReal) ((2 : ℝ) : EReal)) ∧
    IntegrableOn (fun y => y ^ 2) (between ((0 : ℝ) : EReal) ((2 : ℝ) : EReal)) (dice 3).law := by
  refine ⟨?_, dice_integrable 3 _ _⟩
  rw [← Base.p_int (dice 3) (by rw [EReal.coe_le_coe_iff]; norm_num)
    (fun _ => Or.inr (Or.inr ⟨0, by norm_num⟩)), witness_p.2.2]
  norm_num

end Verif.Props
