import Verif.Model.CensoredEntropy
import Verif.Props.Censored
import Verif.Props.Truncated
import Mathlib.Analysis.SpecialFunctions.Log.NegMulLog

set_option linter.unusedSimpArgs false

/-!
# C59: entropy of `Censored`

`Real.negMulLog p` is `-p log p`.
-/

namespace Verif.Props
open Verif MeasureTheory Verif.Spec Verif.Modifier

/-- entropy of a density with respect to a reference measure -/
noncomputable def entropyOf (ν : Measure ℝ) (f : ℝ → ℝ) : ℝ := ∫ x, Real.negMulLog (f x) ∂ν

/-- entropy of masses at the integers -/
noncomputable def massEntropy (f : ℝ → ℝ) : ℝ := ∑' k : ℤ, Real.negMulLog (f k)

private theorem xlogx_eq (x : ℝ) : xlogx x = -Real.negMulLog x := by
  unfold xlogx Real.negMulLog
  split_ifs with h <;> simp [h]

private theorem negMulLog_div (p c : ℝ) (hc : 0 < c) :
    Real.negMulLog (p / c) = Real.negMulLog p / c + p * (Real.log c / c) := by
  unfold Real.negMulLog
  by_cases h : p = 0
  · simp [h]
  · rw [Real.log_div h hc.ne']; field_simp; ring

/-- C59, continuous base: the reported entropy is the entropy of the clipped variable (with respect to length
strictly between the bounds plus unit atoms at the finite bounds, for which `pdf` is the density), given the
exact entropy of the truncated distribution. -/
theorem censored_entropy_continuous (b : Base) (hd : b.discrete = false) (l u : EReal) (hp : Proper b l u)
    (hm : 0 < b.law.real (between (censBounds b l u).1 (censBounds b l u).2))
    (hint : IntegrableOn (fun x => Real.negMulLog (b.pdf x)) (between (censBounds b l u).1 (censBounds b l u).2))
    (t : ℝ) (ht : t = entropyOf volume (truncPdf b (censBounds b l u).1 (censBounds b l u).2)) :
    censEntropy b (censBounds b l u).1 (censBounds b l u).2 t =
      entropyOf (censRef (censBounds b l u).1 (censBounds b l u).2)
        (censPdf b (censBounds b l u).1 (censBounds b l u).2) := by
  obtain ⟨hpm, hlaw⟩ := b.continuous_law hd
  unfold Proper at hp
  generalize (censBounds b l u).1 = L at *
  generalize (censBounds b l u).2 = U at *
  have hL : L ≠ ⊤ := ne_top_of_lt hp
  have hU : U ≠ ⊥ := ne_bot_of_gt hp
  set c := b.law.real (between L U) with hc
  have hmass : c = b.cdf U - b.cdf L := by
    have := b.mass_total (l := L) (u := U) (by simp [hd]) hm
    simpa [adjustLower, hd] using this
  have heq := censPdf_eq b L U
  simp only [hd, Bool.false_eq_true, if_false] at heq
  -- the truncated part
  have hpint : IntegrableOn b.pdf (between L U) ∧ ∫ x in between L U, b.pdf x = c := by
    have h1 : ∫⁻ x in between L U, ENNReal.ofReal (b.pdf x) = b.law (between L U) := by
      rw [hlaw, withDensity_apply _ (meas_between L U)]
    constructor
    · refine ⟨hpm.aestronglyMeasurable, ?_⟩
      rw [hasFiniteIntegral_iff_ofReal (Filter.Eventually.of_forall b.pdf_nonneg), h1]
      exact measure_lt_top _ _
    · rw [integral_eq_lintegral_of_nonneg_ae (Filter.Eventually.of_forall b.pdf_nonneg)
        hpm.aestronglyMeasurable, h1, hc, measureReal_def]
  have htr : t * c - xlogx c = ∫ x in between L U, Real.negMulLog (b.pdf x) := by
    have e1 : (fun x => Real.negMulLog (truncPdf b L U x)) =
        Set.indicator (between L U) (fun x => Real.negMulLog (b.pdf x) / c + b.pdf x * (Real.log c / c)) := by
      funext x
      rw [trunc_pdf_eq b L U (by simp [hd]) hm]
      by_cases hx : x ∈ between L U
      · rw [Set.indicator_of_mem hx, Set.indicator_of_mem hx, negMulLog_div _ _ hm]
      · rw [Set.indicator_of_notMem hx, Set.indicator_of_notMem hx]; simp
    rw [ht, entropyOf, e1, integral_indicator (meas_between L U), integral_add
      (hint.div_const c) (hpint.1.mul_const _), integral_div, integral_mul_const, hpint.2, xlogx, if_neg hm.ne']
    field_simp
    ring
  -- the interior
  set M := {y : ℝ | L < (y : EReal) ∧ (y : EReal) < U} with hM
  have hmid : MeasurableSet M := (meas_gt L).inter (meas_lt U)
  have hsub : M ⊆ between L U := fun y hy => ⟨hy.1.le, hy.2.le⟩
  have hae : M =ᵐ[volume] between L U := by
    have hnull : volume (between L U \ M) = 0 := by
      apply measure_mono_null (t := {L.toReal} ∪ {U.toReal})
      · intro y hy
        have h1 := hy.1
        have h2 : ¬ (L < (y : EReal) ∧ (y : EReal) < U) := hy.2
        rw [not_and_or, not_lt, not_lt] at h2
        rcases h2 with h2 | h2
        · left; have := le_antisymm h2 h1.1; simp [← this]
        · right; have := le_antisymm h2 h1.2; simp [this]
      · exact measure_union_null (by simp) (by simp)
    exact (hsub.eventuallyLE).antisymm (by
      rw [ae_le_set]; exact hnull)
  have hin : ∀ x ∈ M, Real.negMulLog (censPdf b L U x) = Real.negMulLog (b.pdf x) := by
    rintro x ⟨ha, hb⟩
    rw [heq, if_neg hb.ne, if_neg ha.ne', if_neg (by push Not; exact ⟨ha.le, hb.le⟩)]
  have hi1 : IntegrableOn (fun x => Real.negMulLog (censPdf b L U x)) M := by
    rw [integrableOn_congr_fun hin hmid]
    exact hint.mono_set hsub
  have hi2 : ∀ e, Integrable (fun x => Real.negMulLog (censPdf b L U x)) (atomAt e) := by
    intro e
    unfold atomAt
    split_ifs
    · exact integrable_zero_measure
    · exact integrable_dirac (by simp)
  have hv1 : ∫ x, Real.negMulLog (censPdf b L U x) ∂(atomAt L) = Real.negMulLog (b.cdf L) := by
    unfold atomAt
    by_cases hb : L = ⊥
    · have : b.cdf ⊥ = 0 := by simp [Base.cdf]
      simp [hb, this]
    · rw [if_neg (by push Not; exact ⟨hL, hb⟩), integral_dirac, heq, EReal.coe_toReal hL hb, if_neg hp.ne,
        if_pos rfl]
  have hv2 : ∫ x, Real.negMulLog (censPdf b L U x) ∂(atomAt U) = Real.negMulLog (1 - b.cdf U) := by
    unfold atomAt
    by_cases hb : U = ⊤
    · simp [hb, b.cdf_top]
    · rw [if_neg (by push Not; exact ⟨hb, hU⟩), integral_dirac, heq, EReal.coe_toReal hb hU, if_pos rfl]
  rw [entropyOf, censRef, integral_add_measure (Integrable.add_measure hi1 (hi2 L)) (hi2 U), integral_add_measure hi1 (hi2 L),
    hv1, hv2, setIntegral_congr_fun hmid hin, setIntegral_congr_set hae, ← htr]
  simp only [censEntropy, hd, Bool.false_eq_true, if_false, add_zero]
  rw [show 1 - (b.cdf L + (1 - b.cdf U)) = c by rw [hmass]; ring, xlogx_eq (b.cdf L), xlogx_eq (1 - b.cdf U)]
  ring

/-- probability of exactly the bound -/
noncomputable def atBound (μ : Measure ℝ) (e : EReal) : ℝ := μ.real {y : ℝ | (y : EReal) = e}

private theorem pdfAt_eq (b : Base) (hd : b.discrete = true) (e : EReal) : pdfAt b e = atBound b.law e := by
  unfold pdfAt atBound
  split_ifs with h
  · have : {y : ℝ | (y : EReal) = e} = ∅ := by
      ext y; rcases h with rfl | rfl <;> simp
    rw [this]; simp
  · push Not at h
    rw [(b.discrete_law hd).2]
    congr 1
    ext y
    rw [Set.mem_singleton_iff, Set.mem_ofPred_eq]
    constructor
    · rintro rfl; exact EReal.coe_toReal h.1 h.2
    · intro h'; rw [← h']; rfl

private theorem tail_inc (b : Base) (e : EReal) :
    b.law.real {y : ℝ | e ≤ (y : EReal)} = 1 - b.cdf e + atBound b.law e := by
  have hm : MeasurableSet {y : ℝ | (y : EReal) = e} := by
    have : {y : ℝ | (y : EReal) = e} = between e e := by
      ext y
      exact ⟨fun h => ⟨(show (y : EReal) = e from h).ge, (show (y : EReal) = e from h).le⟩, fun h => le_antisymm h.2 h.1⟩
    rw [this]; exact meas_between e e
  have h1 : {y : ℝ | e ≤ (y : EReal)} = {y : ℝ | (y : EReal) ≤ e}ᶜ ∪ {y : ℝ | (y : EReal) = e} := by
    ext y
    simp only [Set.mem_ofPred_eq, Set.mem_union, Set.mem_compl_iff, not_le]
    rw [le_iff_lt_or_eq, eq_comm (a := e)]
  rw [h1, measureReal_union _ hm, probReal_compl_eq_one_sub (meas_le e)]
  · rfl
  · rw [Set.disjoint_left]
    intro y h2 h3
    exact h2 (show (y : EReal) = e from h3).le

private theorem below_eq (b : Base) (e : EReal) :
    b.law.real {y : ℝ | (y : EReal) < e} = b.cdf e - atBound b.law e := by
  have h := tail_inc b e
  have : {y : ℝ | (y : EReal) < e} = {y : ℝ | e ≤ (y : EReal)}ᶜ := by ext y; simp
  rw [this, probReal_compl_eq_one_sub (meas_ge e), h]; ring

private theorem above_eq (b : Base) (e : EReal) :
    b.law.real {y : ℝ | e < (y : EReal)} = 1 - b.cdf e := by
  have : {y : ℝ | e < (y : EReal)} = {y : ℝ | (y : EReal) ≤ e}ᶜ := by ext y; simp
  rw [this, probReal_compl_eq_one_sub (meas_le e)]; rfl

private theorem delta_sum {e : EReal} (he : Whole e) (v : ℝ) (hv : e = ⊤ ∨ e = ⊥ → v = 0) :
    HasSum (fun k : ℤ => if (((k : ℤ) : ℝ) : EReal) = e then v else 0) v := by
  rcases he with h | h | ⟨n, rfl⟩
  · rw [hv (Or.inl h)]; simpa using hasSum_zero
  · rw [hv (Or.inr h)]; simpa using hasSum_zero
  · convert hasSum_ite_eq n v using 3 with k
    rw [EReal.coe_eq_coe_iff]; norm_cast

/-- C59, discrete base: the exact error of the reported entropy. -/
theorem censored_entropy_discrete_error (b : Base) (hd : b.discrete = true) (l u : EReal) (hp : Proper b l u)
    (hl : Whole (censBounds b l u).1) (hu : Whole (censBounds b l u).2)
    (hm : 0 < b.law.real (between (censBounds b l u).1 (censBounds b l u).2))
    (hs : Summable fun k : ℤ =>
      Set.indicator (between (censBounds b l u).1 (censBounds b l u).2) (fun x => Real.negMulLog (b.pdf x)) k)
    (t : ℝ) (ht : t = massEntropy (truncPdf b (censBounds b l u).1 (censBounds b l u).2)) :
    censEntropy b (censBounds b l u).1 (censBounds b l u).2 t =
      massEntropy (fun x => (censLaw b.law l u).real {x})
        + (Real.negMulLog (atBound b.law (censBounds b l u).1)
            - Real.negMulLog (b.law.real {y : ℝ | (y : EReal) < (censBounds b l u).1}))
        + (Real.negMulLog (atBound b.law (censBounds b l u).2)
            - Real.negMulLog (b.law.real {y : ℝ | (censBounds b l u).2 < (y : EReal)})) := by
  rw [b.censLaw_cut hp.le]
  unfold Proper at hp
  generalize (censBounds b l u).1 = L at *
  generalize (censBounds b l u).2 = U at *
  set c := b.law.real (between L U) with hc
  have hmass : c = b.cdf U - (b.cdf L - atBound b.law L) := by
    have h1 := b.mass_total (l := L) (u := U) (fun _ => hl) hm
    have h2 := b.upper_tail hd hl
    rw [tail_inc] at h2
    simp only [adjustLower, hd, if_true] at h1
    rw [← hc] at h1
    linarith
  set f : ℤ → ℝ := fun k => Set.indicator (between L U) (fun x => Real.negMulLog (b.pdf x)) (k : ℝ) with hf
  have htr : t * c - xlogx c = ∑' k, f k := by
    have hone := truncated_sum_one b hd L U hl hm
    have e1 : (fun k : ℤ => Real.negMulLog (truncPdf b L U k)) =
        fun k : ℤ => f k / c + truncPdf b L U k * Real.log c := by
      funext k
      simp only [hf]
      rw [trunc_pdf_eq b L U (fun _ => hl) hm]
      by_cases hx : (k : ℝ) ∈ between L U
      · rw [Set.indicator_of_mem hx, Set.indicator_of_mem hx, negMulLog_div _ _ hm]; ring
      · rw [Set.indicator_of_notMem hx, Set.indicator_of_notMem hx]; simp
    rw [ht, massEntropy, e1, ((hs.hasSum.div_const c).add (hone.mul_right (Real.log c))).tsum_eq, xlogx, if_neg hm.ne']
    field_simp
    ring
  set vL := Real.negMulLog (b.cdf L) - Real.negMulLog (atBound b.law L) with hvL
  set vU := Real.negMulLog (b.law.real {y : ℝ | U ≤ (y : EReal)}) - Real.negMulLog (atBound b.law U) with hvU
  have hLz : L = ⊤ ∨ L = ⊥ → vL = 0 := by
    rintro (h | h)
    · exact absurd h (ne_top_of_lt hp)
    · simp [hvL, h, b.cdf_bot, atBound]
  have hUz : U = ⊤ ∨ U = ⊥ → vU = 0 := by
    rintro (h | h)
    · simp [hvU, h, atBound]
    · exact absurd h (ne_bot_of_gt hp)
  have hcs : HasSum (fun k : ℤ => Real.negMulLog ((censLaw b.law L U).real {(k : ℝ)})) (∑' k, f k + vL + vU) := by
    have h := (hs.hasSum.add (delta_sum hl vL hLz)).add (delta_sum hu vU hUz)
    refine h.congr_fun ?_ |> fun h => h
    intro k
    simp only [hf]
    rw [b.cens_point hp]
    have hat : ∀ e : EReal, ((k : ℝ) : EReal) = e → b.law.real {(k : ℝ)} = atBound b.law e := by
      rintro e rfl
      unfold atBound
      congr 1; ext y; simp
    by_cases h1 : ((k : ℝ) : EReal) = L
    · have hin : (k : ℝ) ∈ between L U := ⟨h1.ge, h1.le.trans hp.le⟩
      have h2 : ((k : ℝ) : EReal) ≠ U := by rw [h1]; exact hp.ne
      rw [if_pos h1, if_pos h1, if_neg h2, Set.indicator_of_mem hin, (b.discrete_law hd).2, hat L h1, hvL]; ring
    · by_cases h2 : ((k : ℝ) : EReal) = U
      · have hin : (k : ℝ) ∈ between L U := ⟨hp.le.trans h2.ge, h2.le⟩
        rw [if_neg h1, if_neg h1, if_pos h2, if_pos h2, Set.indicator_of_mem hin, (b.discrete_law hd).2, hat U h2, hvU]
        ring
      · rw [if_neg h1, if_neg h1, if_neg h2, if_neg h2]
        by_cases h3 : ((k : ℝ) : EReal) < L ∨ ((k : ℝ) : EReal) > U
        · have hin : (k : ℝ) ∉ between L U := by
            rintro ⟨h4, h5⟩
            rcases h3 with h3 | h3
            · exact absurd h3 (not_lt.2 h4)
            · exact absurd h3 (not_lt.2 h5)
          rw [if_pos h3, Set.indicator_of_notMem hin]; simp
        · have hin : (k : ℝ) ∈ between L U := by push Not at h3; exact h3
          rw [if_neg h3, Set.indicator_of_mem hin, (b.discrete_law hd).2]; simp
  rw [massEntropy, hcs.tsum_eq, below_eq, above_eq, ← htr]
  simp only [censEntropy, hd, if_true, pdfAt_eq b hd]
  rw [show 1 - (b.cdf L - atBound b.law L + (1 - b.cdf U)) = c by rw [hmass]; ring, ← tail_inc,
    xlogx_eq (b.cdf L), xlogx_eq (b.cdf L - _), xlogx_eq (1 - b.cdf U), xlogx_eq (b.law.real {y : ℝ | U ≤ (y : EReal)}), hvL, hvU]
  ring

/-- C59, discrete base: the reported entropy is right only under a coincidence between the tails beyond the
bounds and the masses at the bounds (the full claim asks for it always). -/
theorem censored_entropy_discrete_partial (b : Base) (hd : b.discrete = true) (l u : EReal) (hp : Proper b l u)
    (hl : Whole (censBounds b l u).1) (hu : Whole (censBounds b l u).2)
    (hm : 0 < b.law.real (between (censBounds b l u).1 (censBounds b l u).2))
    (hs : Summable fun k : ℤ =>
      Set.indicator (between (censBounds b l u).1 (censBounds b l u).2) (fun x => Real.negMulLog (b.pdf x)) k)
    (t : ℝ) (ht : t = massEntropy (truncPdf b (censBounds b l u).1 (censBounds b l u).2)) :
    censEntropy b (censBounds b l u).1 (censBounds b l u).2 t =
        massEntropy (fun x => (censLaw b.law l u).real {x}) ↔
      Real.negMulLog (b.law.real {y : ℝ | (y : EReal) < (censBounds b l u).1})
          + Real.negMulLog (b.law.real {y : ℝ | (censBounds b l u).2 < (y : EReal)})
        = Real.negMulLog (atBound b.law (censBounds b l u).1)
          + Real.negMulLog (atBound b.law (censBounds b l u).2) := by
  rw [censored_entropy_discrete_error b hd l u hp hl hu hm hs t ht]
  constructor <;> intro h <;> linarith

private theorem dice_between (n : ℕ) :
    censBounds (dice n) ⊥ ⊤ = (((0 : ℝ) : EReal), (((n : ℕ) : ℝ) : EReal)) := by
  show (max (0 : EReal) ⊥, min (((n : ℕ) : ℝ) : EReal) ⊤) = _
  rw [max_eq_left bot_le, min_eq_left le_top]; rfl

private theorem dice_summable (n : ℕ) (S : Set ℝ) :
    Summable fun k : ℤ => Set.indicator S (fun x => Real.negMulLog ((dice n).pdf x)) (k : ℝ) := by
  classical
  apply summable_of_hasFiniteSupport
  apply (Finset.finite_toSet (Finset.Icc (0 : ℤ) n)).subset
  intro k hk
  by_contra hout
  apply hk
  have h0 : (dice n).pdf (k : ℝ) = 0 := by
    show (diceLaw n).real _ = _
    rw [diceLaw_real]
    apply Finset.sum_eq_zero
    intro j hj
    rw [if_neg]
    intro h
    apply hout
    have h' : (j : ℝ) = (k : ℝ) := h
    have h2 : (j : ℤ) = k := by exact_mod_cast h'
    simp only [Finset.mem_range] at hj
    simp only [Finset.coe_Icc, Set.mem_Icc]
    omega
  beta_reduce
  by_cases hS : (k : ℝ) ∈ S
  · rw [Set.indicator_of_mem hS, h0]; simp
  · rw [Set.indicator_of_notMem hS]

/-- C59, what fails: even without any censoring (no bounds given), the reported entropy of a fair coin is not
the entropy of the coin. -/
theorem censored_entropy_coin :
    ∃ b : Base, b.discrete = true ∧ Proper b ⊥ ⊤ ∧
      ∃ t, t = massEntropy (truncPdf b (censBounds b ⊥ ⊤).1 (censBounds b ⊥ ⊤).2) ∧
        massEntropy (fun x => (censLaw b.law ⊥ ⊤).real {x}) ≠
          censEntropy b (censBounds b ⊥ ⊤).1 (censBounds b ⊥ ⊤).2 t := by
  classical
  have hp : Proper (dice 1) ⊥ ⊤ := by
    unfold Proper; rw [dice_between, EReal.coe_lt_coe_iff]; norm_num
  refine ⟨dice 1, rfl, hp, _, rfl, ?_⟩
  have hlaw : ∀ (A : Set ℝ) [DecidablePred (· ∈ A)], (dice 1).law.real A =
      ∑ k ∈ Finset.range 2, if (k : ℝ) ∈ A then 1 / ((1 : ℕ) + 1 : ℝ) else 0 := fun A _ => diceLaw_real 1 A
  intro hne
  have hm : 0 < (dice 1).law.real (between (censBounds (dice 1) ⊥ ⊤).1 (censBounds (dice 1) ⊥ ⊤).2) := by
    rw [hlaw, dice_between]
    simp [Finset.sum_range_succ, between]
  have hiff := (censored_entropy_discrete_partial (dice 1) rfl ⊥ ⊤ hp
    (by rw [dice_between]; exact Or.inr (Or.inr ⟨0, by norm_num⟩))
    (by rw [dice_between]; exact Or.inr (Or.inr ⟨1, by norm_num⟩)) hm (dice_summable 1 _) _ rfl).1 hne.symm
  rw [dice_between] at hiff
  simp only [atBound, hlaw] at hiff
  simp only [Finset.sum_range_succ, Finset.sum_range_zero, Set.mem_ofPred_eq, EReal.coe_lt_coe_iff,
    EReal.coe_eq_coe_iff] at hiff
  norm_num [Real.negMulLog] at hiff
  have hlog : Real.log (1 / 2) < 0 := Real.log_neg (by norm_num) (by norm_num)
  linarith

/-- the hypotheses of the continuous theorem are met: uniform on [0, 2] censored to [0, 1] -/
example : ∃ b : Base, b.discrete = false ∧ Proper b ⊥ (1 : ℝ) ∧
    0 < b.law.real (between (censBounds b ⊥ (1 : ℝ)).1 (censBounds b ⊥ (1 : ℝ)).2) ∧
    IntegrableOn (fun x => Real.negMulLog (b.pdf x))
      (between (censBounds b ⊥ (1 : ℝ)).1 (censBounds b ⊥ (1 : ℝ)).2) := by
  have hb : censBounds (unif 0 2 (by norm_num)) ⊥ ((1 : ℝ) : EReal) = (((0 : ℝ) : EReal), ((1 : ℝ) : EReal)) := by
    show (max ((0 : ℝ) : EReal) ⊥, min ((2 : ℝ) : EReal) ((1 : ℝ) : EReal)) = _
    rw [max_eq_left bot_le, min_eq_right (by rw [EReal.coe_le_coe_iff]; norm_num)]
  have hset : between ((0 : ℝ) : EReal) ((1 : ℝ) : EReal) = Set.Icc 0 1 := by
    ext y
    simp only [between, Set.mem_ofPred_eq, EReal.coe_le_coe_iff, Set.mem_Icc]
  refine ⟨unif 0 2 (by norm_num), rfl, ?_, ?_, ?_⟩
  · unfold Proper; rw [hb, EReal.coe_lt_coe_iff]; norm_num
  · rw [hb, unif_real _ _ _ _ (meas_between _ _), hset, Set.Icc_inter_Icc]
    norm_num
  · rw [hb, hset]
    refine IntegrableOn.congr_fun (f := fun _ => Real.negMulLog (1 / 2)) ?_ ?_ measurableSet_Icc
    · exact integrableOn_const (by simp)
    · intro x hx
      have hx2 : x ∈ Set.Icc (0 : ℝ) 2 := ⟨hx.1, hx.2.trans (by norm_num)⟩
      show _ = Real.negMulLog (unifPdf 0 2 x)
      rw [unifPdf, Set.indicator_of_mem hx2]; norm_num

end Verif.Props
