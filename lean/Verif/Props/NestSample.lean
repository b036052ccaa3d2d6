import Verif.Props.NestMix
import Verif.Props.Sampling

/-!
# C148: samples of nested modifiers
-/

namespace Verif.Props
open Verif MeasureTheory Verif.Spec Verif.Modifier Verif.NestLaw Verif.Lemmas

/-- C148: samples of truncations around each other, to any depth, follow the distribution conditioned on the intersection
of the intervals, and lie in it. -/
theorem nest_sample_truncations (b : Base) (Ls : List Nest.Layer) (ws : List (EReal × EReal))
    (hL : (Ls.map fun L => (L.kind, L.own)) =
      ws.map fun w => (Wrapper.Kind.truncated, [some (Nest.Val.num w.1), some (.num w.2)]))
    (hw : b.discrete = true → ∀ w ∈ ws, Whole w.1) (hm : 0 < b.law.real (insideAll ws)) :
    ∃ f, fnsOf (ofBase b) Ls = some f ∧ ∀ n : ℕ,
      (Measure.pi fun _ : Fin n => unit01).map (fun us (i : Fin n) => entry (inverseRvs f (List.ofFn us)) i) =
        Measure.pi (fun _ : Fin n => ProbabilityTheory.cond b.law (insideAll ws)) := by
  obtain ⟨f, hf, -, hC, -⟩ := nest_truncations b Ls ws hL hw hm
  have := hC.prob
  refine ⟨f, hf, fun n => (inverse_sample _ f.ppf ?_ n).1⟩
  filter_upwards [ae_restrict_mem measurableSet_Ioo] with q hq
  exact hC.ppf q hq.1 hq.2.le

/-- C148: samples of a Censored around a Truncated follow the law of the clipped variable of the truncated distribution. -/
theorem nest_sample_cens_trunc (b : Base) (l u l' u' : EReal) (hl : b.discrete = true → Whole l)
    (hm : 0 < b.law.real (between l u)) (hp : max (max b.lo l) l' < min (min b.hi u) u') (n : ℕ) :
    (Measure.pi fun _ : Fin n => unit01).map
        (fun us (i : Fin n) => entry (censInverseRvs l' u' (truncF l u (ofBase b)) (List.ofFn us)) i) =
      Measure.pi (fun _ : Fin n => censLaw (truncLaw b.law l u) l' u') := by
  have hP := truncated_proper b l u hm
  have : IsProbabilityMeasure (censLaw (truncLaw b.law l u) l' u') :=
    Measure.isProbabilityMeasure_map (clip_meas _ _).aemeasurable
  have e : ∀ us : List ℝ, censInverseRvs l' u' (truncF l u (ofBase b)) us =
      us.map (censF l' u' (truncF l u (ofBase b))).ppf := by
    intro us
    simp only [censInverseRvs, inverseRvs, List.map_map]
    rfl
  simp only [e]
  refine (inverse_sample _ _ ?_ n).1
  filter_upwards [ae_restrict_mem measurableSet_Ioo] with q hq
  exact (nest_cens_trunc b l u l' u' hl hm _ rfl hp).2.2.2.2.2 q hq.1 hq.2.le

private theorem quantile_ge {μ : Measure ℝ} {q : ℝ} {Q lo : EReal} (hq : 0 < q) (h : IsQuantile μ q Q)
    (hlo : ∀ᵐ (y : ℝ) ∂μ, lo ≤ (y : EReal)) : lo ≤ Q := by
  by_contra hlt
  push Not at hlt
  obtain ⟨x, h1, h2⟩ := EReal.lt_iff_exists_real_btwn.1 hlt
  have h3 := (h x).1 h1.le
  have : μ.real (Set.Iic x) = 0 := by
    rw [measureReal_def, measure_mono_null (t := {y : ℝ | ¬ lo ≤ (y : EReal)}) ?_ (ae_iff.1 hlo)]
    · rfl
    · intro y hy
      simp only [Set.mem_ofPred_eq, not_le]
      exact lt_of_le_of_lt (by exact_mod_cast hy) h2
  linarith

/-- C148: samples of `Truncated(Censored(dist, None, u), None, u)` follow the *truncated* distribution: the mass the
censored one has at `u` is missing, although the density reports it. -/
theorem nest_sample_trunc_cens (b : Base) (u : EReal) (hlo : b.lo ≤ u) (hhi : u ≤ b.hi)
    (hu : 0 < b.law.real (between ⊥ u)) (n : ℕ) :
    (Measure.pi fun _ : Fin n => unit01).map
        (fun us (i : Fin n) => entry (inverseRvs (truncF ⊥ u (censF ⊥ u (ofBase b))) (List.ofFn us)) i) =
      Measure.pi (fun _ : Fin n => truncLaw b.law ⊥ u) := by
  have hP := truncated_proper b ⊥ u hu
  have hL : max b.lo ⊥ = b.lo := max_eq_left bot_le
  have hU : min b.hi u = u := min_eq_right hhi
  have ha : adjustLower b.discrete ⊥ = ⊥ := by unfold adjustLower; split <;> simp
  have c1 : (censF ⊥ u (ofBase b)).cdf u = b.cdf u := by
    simp only [censF, ofBase, hL, hU, if_neg (not_lt.2 hlo), gt_iff_lt, lt_irrefl, if_false]
  have c0 : (censF ⊥ u (ofBase b)).cdf ⊥ = 0 := by
    simp only [censF, ofBase, hL, hU, b.cdf_bot, gt_iff_lt, not_lt_bot, if_false, ite_self]
  have hW : b.discrete = true → Whole (⊥ : EReal) := fun _ => Or.inr (Or.inl rfl)
  have hF : 0 < b.cdf u := by
    have := b.mass_total hW hu
    rw [ha, b.cdf_bot, sub_zero] at this
    rw [← this]; exact hu
  refine (inverse_sample _ _ ?_ n).1
  filter_upwards [ae_restrict_mem measurableSet_Ioo] with q hq
  obtain ⟨Q, e, hQ, -, hQu⟩ := truncated_ppf b ⊥ u hW hu q hq.1 hq.2.le
  refine ⟨Q, ?_, hQ⟩
  have hQl : b.lo ≤ Q := quantile_ge hq.1 hQ (by
    filter_upwards [ProbabilityTheory.cond_absolutelyContinuous.ae_le b.in_support] with y hy
    exact hy.1)
  have hlev0 : 0 ≤ q * b.cdf u := mul_nonneg hq.1.le hF.le
  have hlev1 : q * b.cdf u ≤ 1 := by nlinarith [b.cdf_le_one u, hq.1, hq.2]
  have hq' : ¬ (q < 0 ∨ q > 1) := by push Not; exact ⟨hq.1.le, hq.2.le⟩
  have e' : b.ppf (q * b.cdf u) = Q := by
    unfold truncPpf at e
    simp only [ha, b.cdf_bot, sub_zero, zero_add, hq', if_false, Option.some.injEq] at e
    exact e
  show (if q < 0 ∨ q > 1 then none else (censF ⊥ u (ofBase b)).ppf ((censF ⊥ u (ofBase b)).cdf (adjustLower b.discrete ⊥) +
    q * ((censF ⊥ u (ofBase b)).cdf u - (censF ⊥ u (ofBase b)).cdf (adjustLower b.discrete ⊥)))) = some Q
  rw [if_neg hq', ha, c0, c1, sub_zero, zero_add]
  show ((ofBase b).ppf (q * b.cdf u)).map (clip (max b.lo ⊥) (min b.hi u)) = some Q
  have : (ofBase b).ppf (q * b.cdf u) = some Q := by
    show (if _ then none else some _) = _
    rw [if_neg (by push Not; exact ⟨hlev0, hlev1⟩), e']
  rw [this, hL, hU]
  simp only [Option.map_some, clip, max_eq_left hQl, min_eq_right hQu]

/-- C148: samples of a Truncated around a Hurdle, with a lower bound at or below zero and no upper bound, follow the
distribution inside conditioned on being positive (exceeding machine precision if it is continuous): there are no zeros,
although the density reports mass at zero. -/
theorem nest_sample_trunc_hurdle (b : Base) (psi c : ℝ) (hc : c = if b.discrete then 0 else eps)
    (hpos : 0 < b.law.real (Set.Ioi c)) (h0 : 0 < psi) (h1 : psi ≤ 1) (l : EReal) (hl : l ≤ 0) (n : ℕ) :
    (Measure.pi fun _ : Fin n => unit01).map
        (fun us (i : Fin n) => entry (inverseRvs (truncF l ⊤ (hurdleF psi (ofBase b))) (List.ofFn us)) i) =
      Measure.pi (fun _ : Fin n => ProbabilityTheory.cond b.law (Set.Ioi c)) := by
  have htail : b.law.real (Set.Ioi c) = 1 - b.cdf (c : EReal) := by
    rw [b.cdf_coe, ← Set.compl_Iic, probReal_compl_eq_one_sub measurableSet_Iic]
  have hne : b.law (Set.Ioi c) ≠ 0 := by
    intro h; rw [measureReal_def, h] at hpos; simp at hpos
  have : IsProbabilityMeasure (ProbabilityTheory.cond b.law (Set.Ioi c)) :=
    ProbabilityTheory.cond_isProbabilityMeasure hne
  have hlow : adjustLower b.discrete l ≤ 0 := (adjust_le _ l).trans hl
  have cl : (hurdleF psi (ofBase b)).cdf (adjustLower b.discrete l) = 1 - psi := by
    show (if _ then _ else _) = _
    rw [if_pos hlow]
  have cu : (hurdleF psi (ofBase b)).cdf ⊤ = 1 := by
    show (if (⊤ : EReal) ≤ 0 then 1 - psi else 1 - psi * (1 - b.cdf ⊤) / (1 - b.cdf ((eps : ℝ) : EReal))) = 1
    rw [if_neg (by simp), b.cdf_top]; simp
  refine (inverse_sample _ _ ?_ n).1
  filter_upwards [ae_restrict_mem measurableSet_Ioo] with q hq
  have hq' : ¬ (q < 0 ∨ q > 1) := by push Not; exact ⟨hq.1.le, hq.2.le⟩
  set F := b.cdf (c : EReal)
  have hF0 : 0 ≤ F := b.cdf_nonneg _
  have hF1 : F < 1 := by linarith
  have hlev0 : 0 < F + q * (1 - F) := by nlinarith [hq.1]
  have hlev1 : F + q * (1 - F) ≤ 1 := by nlinarith [hq.2]
  refine ⟨b.ppf (F + q * (1 - F)), ?_, ?_⟩
  · show (if q < 0 ∨ q > 1 then none else (hurdleF psi (ofBase b)).ppf
      ((hurdleF psi (ofBase b)).cdf (adjustLower b.discrete l) +
        q * ((hurdleF psi (ofBase b)).cdf ⊤ - (hurdleF psi (ofBase b)).cdf (adjustLower b.discrete l)))) = _
    rw [if_neg hq', cl, cu]
    show (if _ then none else if _ then (ofBase b).ppf (b.cdf (((if b.discrete then 0 else eps : ℝ)) : EReal) + _ *
        (1 - b.cdf (((if b.discrete then 0 else eps : ℝ)) : EReal)) / psi) else some 0) = _
    rw [← hc, if_neg (by push Not; constructor <;> nlinarith [hq.1, hq.2]), if_pos (by nlinarith [hq.1])]
    have : F + (1 - psi + q * (1 - (1 - psi)) - (1 - psi)) * (1 - F) / psi = F + q * (1 - F) := by
      field_simp; ring
    show (ofBase b).ppf (F + (1 - psi + q * (1 - (1 - psi)) - (1 - psi)) * (1 - F) / psi) = _
    rw [this]
    show (if _ then none else some _) = _
    rw [if_neg (by push Not; exact ⟨hlev0.le, hlev1⟩)]
  · intro x
    rw [b.ppf_inverse _ hlev0 hlev1, measureReal_def (ProbabilityTheory.cond b.law (Set.Ioi c)),
      ProbabilityTheory.cond_apply measurableSet_Ioi, ENNReal.toReal_mul, ENNReal.toReal_inv, ← div_eq_inv_mul]
    change _ ↔ q ≤ b.law.real (Set.Ioi c ∩ Set.Iic x) / b.law.real (Set.Ioi c)
    rw [le_div_iff₀ hpos, htail]
    rcases le_or_gt c x with h | h
    · have e : b.law.real (Set.Ioi c ∩ Set.Iic x) = b.cdf (x : EReal) - F := by
        rw [← b.mass_gap (by exact_mod_cast h)]
        congr 1; ext y
        simp
      rw [e, b.cdf_coe]
      constructor <;> intro h' <;> linarith
    · have e : Set.Ioi c ∩ Set.Iic x = ∅ := by
        ext y; simp only [Set.mem_inter_iff, Set.mem_Ioi, Set.mem_Iic, Set.mem_empty_iff_false, iff_false]
        rintro ⟨h2, h3⟩; linarith
      have h2 : b.law.real (Set.Iic x) ≤ F := by
        rw [← b.cdf_coe]; exact b.cdf_mono (by exact_mod_cast h.le)
      rw [e]
      simp only [measureReal_empty]
      constructor <;> intro h' <;> nlinarith [hq.1]

/-- C148: samples of a Hurdle around a Truncated are zero with probability `1 - psi` and otherwise follow the truncated
distribution conditioned on being positive (exceeding machine precision if it is continuous). -/
theorem nest_sample_hurdle_trunc (b : Base) (l u : EReal) (hl : b.discrete = true → Whole l)
    (hm : 0 < b.law.real (between l u)) (psi c : ℝ) (hc : c = if b.discrete then 0 else eps)
    (hpos : 0 < (truncLaw b.law l u).real (Set.Ioi c)) (h0 : 0 < psi) (h1 : psi ≤ 1) (n : ℕ) :
    (Measure.pi fun _ : Fin n => unit01).map
        (fun us (i : Fin n) => entry (inverseRvs (hurdleF psi (truncF l u (ofBase b))) (List.ofFn us)) i) =
      Measure.pi (fun _ : Fin n => ENNReal.ofReal (1 - psi) • Measure.dirac 0 +
        ENNReal.ofReal psi • ProbabilityTheory.cond (truncLaw b.law l u) (Set.Ioi c)) := by
  have hA := agrees_trunc (agrees_base b) hl hm
  set B := nestBase b l u hl hm
  set g := truncF l u (ofBase b)
  have hcB : c = if B.discrete then 0 else eps := hc
  have hpB : 0 < B.law.real (Set.Ioi c) := hpos
  have := hurdleAbove_prob B.law psi c h0.le h1 hpB
  have htail : B.law.real (Set.Ioi c) = 1 - B.cdf (c : EReal) := by
    rw [B.cdf_coe, ← Set.compl_Iic, probReal_compl_eq_one_sub measurableSet_Iic]
  refine (inverse_sample (hurdleAbove B.law psi c) _ ?_ n).1
  have h2 : ∀ᵐ q ∂unit01, q ≠ 1 - psi := by
    apply ae_restrict_of_ae
    simp [ae_iff]
  filter_upwards [ae_restrict_mem measurableSet_Ioo, h2] with q hq hne
  obtain ⟨Q, e, hQ⟩ := hurdle_ppf_above B psi c hcB hpB h0 h1 q hq.1 hq.2 hne
  refine ⟨Q, ?_, hQ⟩
  rw [← e]
  have hq' : ¬ (q < 0 ∨ q > 1) := by push Not; exact ⟨hq.1.le, hq.2.le⟩
  have hg : g.discrete = B.discrete := hA.discrete
  show (if q < 0 ∨ q > 1 then none else if q ≥ 1 - psi then
    g.ppf (g.cdf (((if g.discrete then 0 else eps : ℝ)) : EReal) + (q - (1 - psi)) *
      (1 - g.cdf (((if g.discrete then 0 else eps : ℝ)) : EReal)) / psi) else some 0) =
    if q < 0 ∨ q > 1 then none else some (if q ≥ 1 - psi then
      B.ppf (B.cdf (((if B.discrete then 0 else eps : ℝ)) : EReal) + (q - (1 - psi)) *
        (1 - B.cdf (((if B.discrete then 0 else eps : ℝ)) : EReal)) / psi) else 0)
  rw [if_neg hq', if_neg hq', hg, ← hcB, hA.cdf]
  by_cases h : q ≥ 1 - psi
  · rw [if_pos h, if_pos h]
    have hlt : 1 - psi < q := lt_of_le_of_ne h (Ne.symm hne)
    have hF := B.cdf_nonneg (c : EReal)
    apply hA.ppf
    · have : 0 < (q - (1 - psi)) * (1 - B.cdf (c : EReal)) / psi := by
        apply div_pos (mul_pos (by linarith) (by linarith)) h0
      linarith
    · have : (q - (1 - psi)) * (1 - B.cdf (c : EReal)) / psi ≤ 1 - B.cdf (c : EReal) := by
        rw [div_le_iff₀ h0]
        nlinarith [hq.2]
      linarith
  · rw [if_neg h, if_neg h]

/-! ## The hypotheses are met -/

/-- a sample of `Hurdle(Truncated(die on {0, …, 5}, 1, 4), 0.5)` -/
example (n : ℕ) : (Measure.pi fun _ : Fin n => unit01).map (fun us (i : Fin n) =>
      entry (inverseRvs (hurdleF (1 / 2) (truncF ((1 : ℝ) : EReal) ((4 : ℝ) : EReal) (ofBase (dice 5)))) (List.ofFn us)) i) =
    Measure.pi (fun _ : Fin n => ENNReal.ofReal (1 - 1 / 2) • Measure.dirac 0 +
      ENNReal.ofReal (1 / 2) • ProbabilityTheory.cond (truncLaw (dice 5).law ((1 : ℝ) : EReal) ((4 : ℝ) : EReal)) (Set.Ioi 0)) := by
  classical
  have hm : 0 < (dice 5).law.real (between ((1 : ℝ) : EReal) ((4 : ℝ) : EReal)) := by
    show 0 < (diceLaw 5).real _
    rw [diceLaw_real]
    norm_num [Finset.sum_range_succ, between]
  apply nest_sample_hurdle_trunc (dice 5) _ _ (fun _ => Or.inr (Or.inr ⟨1, by norm_num⟩)) hm _ _
    (by simp [dice, discreteBase]) _ (by norm_num) (by norm_num)
  have hP := truncated_proper (dice 5) _ _ hm
  have : truncLaw (dice 5).law ((1 : ℝ) : EReal) ((4 : ℝ) : EReal) (Set.Ioi 0) = 1 := by
    rw [← measure_univ (μ := truncLaw (dice 5).law ((1 : ℝ) : EReal) ((4 : ℝ) : EReal))]
    apply measure_congr
    have hb : MeasurableSet (between ((1 : ℝ) : EReal) ((4 : ℝ) : EReal)) := by
      have : between ((1 : ℝ) : EReal) ((4 : ℝ) : EReal) = Set.Icc 1 4 := by
        ext y; simp only [between, Set.mem_ofPred_eq, Set.mem_Icc, EReal.coe_le_coe_iff]
      rw [this]; exact measurableSet_Icc
    filter_upwards [ProbabilityTheory.ae_cond_mem hb] with y hy
    have h1 : (1 : ℝ) ≤ y := by exact_mod_cast hy.1
    apply propext
    exact ⟨fun _ => trivial, fun _ => by show (0 : ℝ) < y; linarith⟩
  rw [measureReal_def, this]
  norm_num

/-- a sample of `Truncated(Censored(die on {0, 1, 2}, None, 1), None, 1)` -/
example (n : ℕ) : (Measure.pi fun _ : Fin n => unit01).map (fun us (i : Fin n) =>
      entry (inverseRvs (truncF ⊥ ((1 : ℝ) : EReal) (censF ⊥ ((1 : ℝ) : EReal) (ofBase (dice 2)))) (List.ofFn us)) i) =
    Measure.pi (fun _ : Fin n => truncLaw (dice 2).law ⊥ ((1 : ℝ) : EReal)) := by
  classical
  apply nest_sample_trunc_cens
  · show (0 : EReal) ≤ _; exact_mod_cast zero_le_one
  · show _ ≤ (((2 : ℕ) : ℝ) : EReal); rw [EReal.coe_le_coe_iff]; norm_num
  · show 0 < (diceLaw 2).real _
    rw [diceLaw_real]
    norm_num [Finset.sum_range_succ, between]

/-- a sample of `Truncated(Hurdle(die on {0, 1, 2}, 0.5))` -/
example (n : ℕ) : (Measure.pi fun _ : Fin n => unit01).map (fun us (i : Fin n) =>
      entry (inverseRvs (truncF ⊥ ⊤ (hurdleF (1 / 2) (ofBase (dice 2)))) (List.ofFn us)) i) =
    Measure.pi (fun _ : Fin n => ProbabilityTheory.cond (dice 2).law (Set.Ioi 0)) := by
  classical
  apply nest_sample_trunc_hurdle (dice 2) (1 / 2) 0 (by simp [dice, discreteBase]) _ (by norm_num) (by norm_num) ⊥ bot_le
  show 0 < (diceLaw 2).real _
  rw [diceLaw_real]
  norm_num [Finset.sum_range_succ]

end Verif.Props
