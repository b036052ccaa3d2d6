import Verif.Lemmas.Censored
import Verif.Lemmas.CensoredMoments

set_option linter.unusedSimpArgs false

/-!
# C19, C20: `Mixture`
-/

namespace Verif.Props
open Verif MeasureTheory Verif.Spec Verif.Modifier

/-- weights as the documentation asks: one per component, non-negative, not all zero -/
structure GoodWeights (n : ℕ) (ws : List ℝ) : Prop where
  len : ws.length = n
  nonneg : ∀ w ∈ ws, 0 ≤ w
  pos : 0 < ws.sum

theorem zipWith_div (bs : List α) (ws : List ℝ) (s : ℝ) (f : α → ℝ → β) :
    List.zipWith f bs (ws.map (· / s)) = (List.zip bs ws).map fun p => f p.1 (p.2 / s) := by
  induction bs generalizing ws with
  | nil => simp
  | cons b bs ih => cases ws with
    | nil => simp
    | cons w ws => simp [ih]

theorem zipWith_eq_map (bs : List α) (ws : List ℝ) (f : α → ℝ → β) :
    List.zipWith f bs ws = (List.zip bs ws).map fun p => f p.1 p.2 := by
  induction bs generalizing ws with
  | nil => simp
  | cons b bs ih => cases ws with
    | nil => simp
    | cons w ws => simp [ih]

/-- C19: the weights used are non-negative and sum to one. -/
theorem mixture_weights (ws : List ℝ) (n : ℕ) (h : GoodWeights n ws) :
    (mixWeights ws).length = n ∧ (∀ w ∈ mixWeights ws, 0 ≤ w) ∧ (mixWeights ws).sum = 1 := by
  refine ⟨by simp [mixWeights, h.len], ?_, ?_⟩
  · intro w hw
    obtain ⟨v, hv, rfl⟩ := List.mem_map.1 hw
    exact div_nonneg (h.nonneg v hv) h.pos.le
  · have : ∀ (l : List ℝ) (s : ℝ), (l.map (· / s)).sum = l.sum / s := by
      intro l s
      induction l with
      | nil => simp
      | cons a l ih => simp [ih, add_div]
    rw [mixWeights, this, div_self h.pos.ne']

/-- C19: multiplying all weights by a positive constant changes nothing. -/
theorem mixture_scale (ws : List ℝ) (c : ℝ) (hc : 0 < c) :
    mixWeights (ws.map (c * ·)) = mixWeights ws := by
  have : (ws.map (c * ·)).sum = c * ws.sum := by rw [List.sum_map_mul_left]; simp
  unfold mixWeights
  rw [this, List.map_map]
  apply List.map_congr_left
  intro w _
  simp only [Function.comp]
  rw [mul_div_mul_left _ _ hc.ne']

/-- the mixture law, with explicit pairs -/
theorem mixLaw_pairs (bs : List Base) (ws : List ℝ) :
    mixLaw (bs.map Base.law) ws
      = ((List.zip bs ws).map fun p => ENNReal.ofReal (p.2 / ws.sum) • p.1.law).sum := by
  unfold mixLaw
  rw [zipWith_eq_map, List.zip_map_left, List.map_map]
  rfl

theorem list_sum_apply (ps : List (Base × ℝ)) (c : ℝ → ENNReal) (A : Set ℝ) :
    (ps.map fun p => c p.2 • p.1.law).sum A = (ps.map fun p => c p.2 * p.1.law A).sum := by
  induction ps with
  | nil => simp
  | cons p ps ih => simp [ih]

theorem mixLaw_real (bs : List Base) (ws : List ℝ) (n : ℕ) (h : GoodWeights n ws) (A : Set ℝ) :
    (mixLaw (bs.map Base.law) ws).real A
      = ((List.zip bs ws).map fun p => p.1.law.real A * (p.2 / ws.sum)).sum := by
  rw [mixLaw_pairs, measureReal_def, list_sum_apply _ (fun w => ENNReal.ofReal (w / ws.sum))]
  have hz : ∀ p ∈ List.zip bs ws, 0 ≤ p.2 / ws.sum := fun p hp =>
    div_nonneg (h.nonneg _ (List.of_mem_zip hp).2) h.pos.le
  generalize List.zip bs ws = ps at hz
  generalize ws.sum = s at *
  induction ps with
  | nil => simp
  | cons p ps ih =>
    simp only [List.map_cons, List.sum_cons]
    rw [ENNReal.toReal_add, ih (fun q hq => hz q (List.mem_cons_of_mem _ hq)), ENNReal.toReal_mul,
      ENNReal.toReal_ofReal (hz p (List.mem_cons_self)), measureReal_def]
    · ring
    · exact ENNReal.mul_ne_top ENNReal.ofReal_ne_top (measure_ne_top _ _)
    · clear ih hz
      induction ps with
      | nil => simp
      | cons q qs ih =>
        simp only [List.map_cons, List.sum_cons]
        exact ENNReal.add_ne_top.2
          ⟨ENNReal.mul_ne_top ENNReal.ofReal_ne_top (measure_ne_top _ _), ih⟩

theorem zip_weights_sum (bs : List α) (ws : List ℝ) (h : GoodWeights bs.length ws) :
    ((List.zip bs ws).map fun p => p.2 / ws.sum).sum = 1 := by
  have h1 := (mixture_weights ws _ h).2.2
  unfold mixWeights at h1
  have h2 : (List.zip bs ws).map Prod.snd = ws := List.map_snd_zip (by rw [h.len])
  conv_rhs => rw [← h1]
  conv_rhs => arg 1; arg 2; rw [← h2]
  rw [List.map_map]; rfl

/-- C19: the mixture is a probability law. -/
theorem mixture_proper (bs : List Base) (ws : List ℝ) (h : GoodWeights bs.length ws) :
    (mixLaw (bs.map Base.law) ws).real Set.univ = 1 := by
  rw [mixLaw_real bs ws _ h]
  simp only [probReal_univ, one_mul]
  exact zip_weights_sum bs ws h

/-- C19: the cdf is the cdf of the mixture law; hence monotone and between 0 and 1. -/
theorem mixture_cdf (bs : List Base) (ws : List ℝ) (h : GoodWeights bs.length ws) (x : ℝ) :
    mixCdf bs ws x = (mixLaw (bs.map Base.law) ws).real (Set.Iic x) := by
  rw [mixLaw_real bs ws _ h]
  unfold mixCdf mixWeights
  rw [zipWith_div]
  simp only [Base.cdf_coe]

/-- C19: for discrete components `pdf` is the mass function of the mixture law. -/
theorem mixture_mass (bs : List Base) (ws : List ℝ) (h : GoodWeights bs.length ws)
    (hd : ∀ b ∈ bs, b.discrete = true) (x : ℝ) :
    mixPdf bs ws x = (mixLaw (bs.map Base.law) ws).real {x} := by
  rw [mixLaw_real bs ws _ h]
  unfold mixPdf mixWeights
  rw [zipWith_div]
  congr 1
  apply List.map_congr_left
  intro p hp
  simp only [(p.1.discrete_law (hd _ (List.of_mem_zip hp).1)).2]

/-- C19: for continuous components `pdf` is the density of the mixture law. -/
theorem mixture_density (bs : List Base) (ws : List ℝ) (h : GoodWeights bs.length ws)
    (hd : ∀ b ∈ bs, b.discrete = false) :
    IsDensity volume (mixLaw (bs.map Base.law) ws) (mixPdf bs ws) := by
  have heq : mixPdf bs ws = fun x => ((List.zip bs ws).map fun p => p.1.pdf x * (p.2 / ws.sum)).sum := by
    ext x; unfold mixPdf mixWeights; rw [zipWith_div]
  rw [mixLaw_pairs, heq]
  have hz : ∀ p ∈ List.zip bs ws, 0 ≤ p.2 / ws.sum ∧ p.1.discrete = false := fun p hp =>
    ⟨div_nonneg (h.nonneg _ (List.of_mem_zip hp).2) h.pos.le, hd _ (List.of_mem_zip hp).1⟩
  generalize List.zip bs ws = ps at hz
  generalize ws.sum = s at *
  clear heq h hd
  induction ps with
  | nil => exact ⟨fun x => by simp, by simp⟩
  | cons p ps ih =>
    obtain ⟨ih1, ih2⟩ := ih (fun q hq => hz q (List.mem_cons_of_mem _ hq))
    obtain ⟨hp0, hpd⟩ := hz p List.mem_cons_self
    obtain ⟨hm, hl⟩ := p.1.continuous_law hpd
    simp only [List.map_cons, List.sum_cons]
    refine ⟨fun x => add_nonneg (mul_nonneg (p.1.pdf_nonneg x) hp0) (ih1 x), ?_⟩
    rw [ih2]
    have e : (fun x => ENNReal.ofReal (p.1.pdf x * (p.2 / s)
        + (ps.map fun p => p.1.pdf x * (p.2 / s)).sum))
        = (ENNReal.ofReal (p.2 / s) • fun x => ENNReal.ofReal (p.1.pdf x))
          + fun x => ENNReal.ofReal (ps.map fun p => p.1.pdf x * (p.2 / s)).sum := by
      ext x
      simp only [Pi.add_apply, Pi.smul_apply, smul_eq_mul]
      rw [ENNReal.ofReal_add (mul_nonneg (p.1.pdf_nonneg x) hp0) (ih1 x),
        ENNReal.ofReal_mul (p.1.pdf_nonneg x), mul_comm]
    rw [e, withDensity_add_left (by fun_prop), withDensity_smul _ (by fun_prop), ← hl]

/-- C19: `logpdf` is the logarithm of `pdf`. -/
theorem mixture_logpdf (bs : List Base) (ws : List ℝ) (h : GoodWeights bs.length ws) (x : ℝ) :
    mixLogpdf bs ws x = logOf (mixPdf bs ws x) := by
  unfold mixLogpdf mixPdf mixWeights
  dsimp only
  rw [zipWith_div, zipWith_div, List.map_map]
  congr 2
  apply List.map_congr_left
  intro p hp
  have hw : 0 ≤ p.2 / ws.sum := div_nonneg (h.nonneg _ (List.of_mem_zip hp).2) h.pos.le
  have hpdf := p.1.pdf_nonneg x
  simp only [Function.comp, Base.logpdf, logOf]
  by_cases h1 : p.2 / ws.sum = 0
  · simp [h1, expOf]
  · by_cases h2 : p.1.pdf x = 0
    · simp [h1, h2, expOf]
    · simp only [h1, h2, if_false, Option.bind_some, Option.map_some, expOf]
      rw [Real.exp_add, Real.exp_log (lt_of_le_of_ne hw (Ne.symm h1)),
        Real.exp_log (lt_of_le_of_ne hpdf (Ne.symm h2)), mul_comm]

theorem mix_integral (bs : List Base) (ws : List ℝ) (n : ℕ) (h : GoodWeights n ws) (f : ℝ → ℝ)
    (hf : ∀ b ∈ bs, Integrable f b.law) :
    ∫ y, f y ∂(mixLaw (bs.map Base.law) ws)
      = ((List.zip bs ws).map fun p => (∫ y, f y ∂p.1.law) * (p.2 / ws.sum)).sum ∧
    Integrable f (mixLaw (bs.map Base.law) ws) := by
  rw [mixLaw_pairs]
  have hz : ∀ p ∈ List.zip bs ws, 0 ≤ p.2 / ws.sum ∧ Integrable f p.1.law := fun p hp =>
    ⟨div_nonneg (h.nonneg _ (List.of_mem_zip hp).2) h.pos.le, hf _ (List.of_mem_zip hp).1⟩
  generalize List.zip bs ws = ps at hz
  generalize ws.sum = s at *
  clear h hf
  induction ps with
  | nil => simp
  | cons p ps ih =>
    obtain ⟨ih1, ih2⟩ := ih (fun q hq => hz q (List.mem_cons_of_mem _ hq))
    obtain ⟨hp0, hpi⟩ := hz p List.mem_cons_self
    have hi : Integrable f (ENNReal.ofReal (p.2 / s) • p.1.law) :=
      hpi.smul_measure ENNReal.ofReal_ne_top
    simp only [List.map_cons, List.sum_cons]
    refine ⟨?_, hi.add_measure ih2⟩
    rw [integral_add_measure hi ih2, ih1, integral_smul_measure, ENNReal.toReal_ofReal hp0,
      smul_eq_mul, mul_comm]

/-- C19: mean and variance are those of the mixture law. -/
theorem mixture_mean_var (bs : List Base) (ws : List ℝ) (h : GoodWeights bs.length ws)
    (h1 : ∀ b ∈ bs, Integrable (fun y => y) b.law) (h2 : ∀ b ∈ bs, Integrable (fun y => y ^ 2) b.law) :
    mixMean (bs.map fun b => mean b.law) ws = mean (mixLaw (bs.map Base.law) ws) ∧
    mixVar (bs.map fun b => (mean b.law, central b.law 2)) ws
      = central (mixLaw (bs.map Base.law) ws) 2 := by
  have hmean : mixMean (bs.map fun b => mean b.law) ws = mean (mixLaw (bs.map Base.law) ws) := by
    unfold mixMean mixWeights
    rw [zipWith_div, List.zip_map_left, List.map_map]
    conv_rhs => unfold mean
    rw [(mix_integral bs ws _ h (fun y => y) h1).1]
    rfl
  refine ⟨hmean, ?_⟩
  obtain ⟨e1, i1⟩ := mix_integral bs ws _ h (fun y => y) h1
  obtain ⟨e2, i2⟩ := mix_integral bs ws _ h (fun y => y ^ 2) h2
  have hP : IsProbabilityMeasure (mixLaw (bs.map Base.law) ws) := by
    have := mixture_proper bs ws h
    exact ⟨by rw [measureReal_def, ENNReal.toReal_eq_one_iff] at this; exact this⟩
  have central2 : ∀ (μ : Measure ℝ) [IsProbabilityMeasure μ], Integrable (fun y => y) μ →
      Integrable (fun y => y ^ 2) μ → central μ 2 = (∫ y, y ^ 2 ∂μ) - mean μ ^ 2 := by
    intro μ _ j1 j2
    unfold central
    have e : (fun y : ℝ => (y - mean μ) ^ 2) = fun y => (y ^ 2 - 2 * mean μ * y) + mean μ ^ 2 := by
      ext y; ring
    have k1 : Integrable (fun y : ℝ => 2 * mean μ * y) μ := j1.const_mul _
    have k2 : Integrable (fun y : ℝ => y ^ 2 - 2 * mean μ * y) μ := j2.sub k1
    rw [e, integral_add k2 (integrable_const _), integral_sub j2 k1, integral_const_mul,
      integral_const]
    simp only [probReal_univ, one_smul]
    change _ - 2 * mean μ * mean μ + _ = _
    ring
  rw [central2 _ i1 i2, e2, ← hmean]
  unfold mixVar mixWeights
  have em : (bs.map fun b => (mean b.law, central b.law 2)).map Prod.fst
      = bs.map fun b => mean b.law := by rw [List.map_map]; rfl
  rw [em, zipWith_div, List.zip_map_left, List.map_map]
  congr 2
  apply List.map_congr_left
  intro p hp
  have hb := (List.of_mem_zip hp).1
  simp only [Function.comp, Prod.map, id]
  rw [central2 _ (h1 _ hb) (h2 _ hb)]
  ring

/-- C19, what fails: the number of weights is not checked.  With more weights than components the
surplus is normalised away and then dropped, so the total mass falls below one. -/
theorem mixture_extra_weight (b : Base) (w v x : ℝ) (hw : 0 < w) (hv : 0 < v) (hx : 0 < b.cdf x) :
    mixCdf [b] [w, v] x < b.cdf x ∧
      Filter.Tendsto (mixCdf [b] [w, v]) Filter.atTop (nhds (w / (w + v))) ∧ w / (w + v) < 1 := by
  have hlt : w / (w + v) < 1 := by rw [div_lt_one (by linarith)]; linarith
  have heq : ∀ y : ℝ, mixCdf [b] [w, v] y = b.cdf y * (w / (w + v)) := by
    intro y; simp [mixCdf, mixWeights]
  refine ⟨?_, ?_, hlt⟩
  · rw [heq]; nlinarith
  · have h1 : Filter.Tendsto (fun y : ℝ => b.cdf y) Filter.atTop (nhds 1) := by
      have := ProbabilityTheory.tendsto_cdf_atTop b.law
      refine this.congr fun y => ?_
      rw [b.cdf_coe, ProbabilityTheory.cdf_eq_real]
    have h2 := h1.mul_const (w / (w + v))
    rw [one_mul] at h2
    exact h2.congr fun y => (heq y).symm

/-- the hypotheses are met by two dice with weights 1 and 3 -/
example : GoodWeights [dice 1, dice 5].length [1, 3] ∧
    (∀ b ∈ [dice 1, dice 5], b.discrete = true ∧ Integrable (fun y => y ^ 2) b.law) := by
  refine ⟨⟨rfl, by simp, by norm_num⟩, ?_⟩
  intro b hb
  simp only [List.mem_cons, List.not_mem_nil, or_false] at hb
  rcases hb with rfl | rfl
  · exact ⟨rfl, integrableOn_univ.1 (dice_integrable 1 _ _)⟩
  · exact ⟨rfl, integrableOn_univ.1 (dice_integrable 5 _ _)⟩

/-! ## C20 -/

/-- element-wise sampling: position `j` takes the next unused value of the component chosen there -/
def elementwise {α : Type} (s : ℕ → ℕ → α) (idx : List ℕ) : List α :=
  idx.zipIdx.map fun p => s p.1 ((idx.take p.2).count p.1)

theorem elementwise_snoc {α : Type} (s : ℕ → ℕ → α) (idx : List ℕ) (a : ℕ) :
    elementwise s (idx ++ [a]) = elementwise s idx ++ [s a (idx.count a)] := by
  unfold elementwise
  rw [List.zipIdx_append, List.map_append]
  congr 1
  · apply List.map_congr_left
    rintro ⟨v, i⟩ hp
    have := List.snd_lt_add_of_mem_zipIdx hp
    simp only
    rw [List.take_append_of_le_length (by omega)]
  · simp

theorem mixRvs_ok {α : Type} (n : ℕ) (idx : List ℕ) (hidx : ∀ i ∈ idx, i < n) (hne : idx ≠ [])
    (draw : ℕ → ℕ → List α) (h0 : ∀ i, draw i 0 = []) :
    mixRvs n idx draw = .ok ((List.range n).flatMap fun i => draw i (idx.count i)) := by
  unfold mixRvs
  dsimp only
  have hf : ((List.range n).filterMap fun i =>
      if idx.count i ≠ 0 then some (draw i (idx.count i)) else none).flatten
      = (List.range n).flatMap fun i => draw i (idx.count i) := by
    generalize List.range n = l
    induction l with
    | nil => rfl
    | cons a l ih =>
      rw [List.filterMap_cons, List.flatMap_cons]
      by_cases h : idx.count a ≠ 0
      · simp only [h, if_true, List.flatten_cons, ih, not_false_eq_true, ne_eq]
      · simp only [h, if_false]
        rw [ih]
        push Not at h
        rw [h, h0, List.nil_append]
  have hpart : ¬ ((List.range n).filterMap fun i =>
      if idx.count i ≠ 0 then some (draw i (idx.count i)) else none).isEmpty = true := by
    obtain ⟨a, l, rfl⟩ := List.exists_cons_of_ne_nil hne
    rw [List.isEmpty_iff, List.filterMap_eq_nil_iff]
    push Not
    refine ⟨a, by simpa using hidx a List.mem_cons_self, ?_⟩
    simp
  rw [if_neg hpart, hf]

theorem flatMap_single {α : Type} (n a : ℕ) (ha : a < n) (x : α) :
    (List.range n).flatMap (fun i => if i = a then [x] else []) = [x] := by
  induction n with
  | zero => omega
  | succ n ih =>
    rw [List.range_succ, List.flatMap_append]
    by_cases h : a = n
    · subst h
      have : (List.range a).flatMap (fun i => if i = a then [x] else []) = [] := by
        rw [List.flatMap_eq_nil_iff]
        intro i hi
        have := List.mem_range.1 hi
        rw [if_neg (by omega)]
      simp [this]
    · rw [ih (by omega)]
      simp [Ne.symm h]

theorem blocks_perm {α : Type} (n : ℕ) (s : ℕ → ℕ → α) (idx : List ℕ) (hidx : ∀ i ∈ idx, i < n) :
    ((List.range n).flatMap fun i => (List.range (idx.count i)).map (s i)).Perm
      (elementwise s idx) := by
  induction idx using List.reverseRecOn with
  | nil => simp [elementwise]
  | append_singleton idx a ih =>
    rw [elementwise_snoc]
    have ih := ih fun i hi => hidx i (List.mem_append_left _ hi)
    have ha : a < n := hidx a (by simp)
    have hstep : ∀ i, (List.range ((idx ++ [a]).count i)).map (s i)
        = (List.range (idx.count i)).map (s i) ++ (if i = a then [s a (idx.count a)] else []) := by
      intro i
      rw [List.count_append]
      by_cases h : i = a
      · subst h
        simp [List.range_succ]
      · simp [h, List.count_singleton, Ne.symm h]
    simp only [hstep]
    refine (List.flatMap_append_perm _ _ _).symm.trans ?_
    rw [flatMap_single n a ha]
    exact ih.append_right _

/-- C20: reordering by component is the only difference from element-wise sampling: if component `i`
hands out its stream `s i` from the start, the result is a permutation of the element-wise result. -/
theorem mixture_rvs_perm {α : Type} (n : ℕ) (idx : List ℕ) (hidx : ∀ i ∈ idx, i < n)
    (hne : idx ≠ []) (s : ℕ → ℕ → α) :
    ∃ out, mixRvs n idx (fun i k => (List.range k).map (s i)) = .ok out ∧
      out.Perm (elementwise s idx) :=
  ⟨_, mixRvs_ok n idx hidx hne _ (by simp), blocks_perm n s idx hidx⟩

/-- C20: as many values as requested, and the values are those of the components in order, component
`i` asked for exactly as many values as it was chosen. -/
theorem mixture_rvs_length {α : Type} (n : ℕ) (idx : List ℕ) (hidx : ∀ i ∈ idx, i < n)
    (hne : idx ≠ []) (draw : ℕ → ℕ → List α) (hdraw : ∀ i k, (draw i k).length = k) :
    ∃ out, mixRvs n idx draw = .ok out ∧ out.length = idx.length ∧
      out = (List.range n).flatMap fun i => draw i (idx.count i) := by
  refine ⟨_, mixRvs_ok n idx hidx hne draw (fun i => List.length_eq_zero_iff.1 (hdraw i 0)), ?_, rfl⟩
  have h := (blocks_perm n (fun _ _ => ()) idx hidx).length_eq
  rw [List.length_flatMap] at h ⊢
  simp only [List.length_map, List.length_range] at h
  simp only [hdraw]
  rw [h]
  simp [elementwise]

/-- C20, what fails: the values are grouped by component, so their order carries information; two
components with streams 0,0,… and 1,1,… and choices 1,0 give [0, 1] where element-wise sampling gives
[1, 0]. -/
theorem mixture_rvs_block_order :
    mixRvs 2 [1, 0] (fun i k => List.replicate k i) = .ok [0, 1] ∧
      elementwise (fun i _ => i) [1, 0] = [1, 0] := by
  constructor <;> rfl

/-- C20, what fails: asking for no values at all raises an error instead of returning none. -/
theorem mixture_rvs_zero {α : Type} (n : ℕ) (draw : ℕ → ℕ → List α) :
    mixRvs n [] draw = .error .valueError := by
  unfold mixRvs
  simp

example : ∀ i ∈ [1, 0, 1], i < 2 := by decide

end Verif.Props
