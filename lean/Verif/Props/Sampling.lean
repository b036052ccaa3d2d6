import Verif.Model.Sample
import Verif.Lemmas.Sampling
import Verif.Lemmas.Censored
import Verif.Props.Truncated
import Verif.Props.Censored
import Verif.Props.Hurdle
import Verif.Props.Mixture
import Mathlib.Probability.Independence.Basic

/-! # C89: samples follow the distribution they are drawn from -/

namespace Verif.Props
open Verif MeasureTheory Verif.Spec Verif.Modifier Verif.Lemmas Verif.Sample ProbabilityTheory

/-- entry `i` of a returned array, as a number; entries that are nan, infinite or missing are read as
0 (they have probability zero in the theorems below) -/
noncomputable def entry (r : List (Option EReal)) (i : ℕ) : ℝ := ((r[i]?.join).getD 0).toReal

theorem entry_map (f : ℝ → Option EReal) {n : ℕ} (us : Fin n → ℝ) (i : Fin n) :
    entry ((List.ofFn us).map f) i = ((f (us i)).getD 0).toReal := by
  simp [entry]

theorem inverse_sample (μ : Measure ℝ) [IsProbabilityMeasure μ] (f : ℝ → Option EReal)
    (hf : ∀ᵐ q ∂unit01, ∃ Q, f q = some Q ∧ IsQuantile μ q Q) (n : ℕ) :
    (Measure.pi fun _ : Fin n => unit01).map
        (fun us (i : Fin n) => entry ((List.ofFn us).map f) i) = Measure.pi (fun _ : Fin n => μ) ∧
      ∀ᵐ us ∂(Measure.pi fun _ : Fin n => unit01),
        ∀ r ∈ (List.ofFn us).map f, ∃ x : ℝ, r = some (x : EReal) := by
  obtain ⟨h1, h2, h3⟩ := inverse_law μ f hf
  constructor
  · simp only [entry_map]
    have hp : IsProbabilityMeasure (unit01.map fun q => ((f q).getD 0).toReal) := by
      rw [h2]; infer_instance
    rw [Measure.pi_map_pi (f := fun (_ : Fin n) q => ((f q).getD 0).toReal) (fun _ => h1), h2]
  · have h4 : ∀ i : Fin n, ∀ᵐ us ∂(Measure.pi fun _ : Fin n => unit01),
        ∃ x : ℝ, f (us i) = some (x : EReal) := fun i =>
      (Measure.quasiMeasurePreserving_eval (fun _ : Fin n => unit01) i).ae h3
    filter_upwards [ae_all_iff.2 h4] with us hus r hr
    obtain ⟨v, hv, rfl⟩ := List.mem_map.1 hr
    obtain ⟨i, rfl⟩ := (List.mem_ofFn' us v).1 hv
    exact hus i

/-- C89: the values of a Truncated sample are independent draws from the base law conditioned on
lying between the bounds. -/
theorem truncated_sample_law (b : Base) (l u : EReal) (hl : b.discrete = true → Whole l)
    (hm : 0 < b.law.real (between l u)) (n : ℕ) :
    (Measure.pi fun _ : Fin n => unit01).map
        (fun us (i : Fin n) => entry (truncRvs b l u (List.ofFn us)) i)
      = Measure.pi (fun _ : Fin n => truncLaw b.law l u) ∧
    ∀ᵐ us ∂(Measure.pi fun _ : Fin n => unit01), ∀ r ∈ truncRvs b l u (List.ofFn us),
      ∃ x : ℝ, r = some (x : EReal) ∧ l ≤ x ∧ x ≤ u := by
  have hne : b.law (between l u) ≠ 0 := by
    intro h; rw [measureReal_def, h] at hm; simp at hm
  have : IsProbabilityMeasure (truncLaw b.law l u) := cond_isProbabilityMeasure hne
  have hin : ∀ᵐ q ∂unit01, q ∈ Set.Ioo (0 : ℝ) 1 := ae_restrict_mem measurableSet_Ioo
  have hq : ∀ᵐ q ∂unit01, ∃ Q, truncPpf b l u q = some Q ∧ IsQuantile (truncLaw b.law l u) q Q := by
    filter_upwards [hin] with q hq
    obtain ⟨Q, a, c, -⟩ := truncated_ppf b l u hl hm q hq.1 hq.2.le
    exact ⟨Q, a, c⟩
  obtain ⟨h1, h2⟩ := inverse_sample _ _ hq n
  refine ⟨h1, ?_⟩
  have h4 : ∀ i : Fin n, ∀ᵐ us ∂(Measure.pi fun _ : Fin n => unit01), us i ∈ Set.Ioo (0 : ℝ) 1 :=
    fun i => (Measure.quasiMeasurePreserving_eval (fun _ : Fin n => unit01) i).ae hin
  filter_upwards [h2, ae_all_iff.2 h4] with us hus hio r hr
  obtain ⟨x, hx⟩ := hus r hr
  obtain ⟨v, hv, rfl⟩ := List.mem_map.1 hr
  obtain ⟨i, rfl⟩ := (List.mem_ofFn' us v).1 hv
  obtain ⟨Q, a, -, c, d⟩ := truncated_ppf b l u hl hm _ (hio i).1 (hio i).2.le
  rw [a, Option.some.injEq] at hx
  subst hx
  exact ⟨x, a, c, d⟩

/-- zero with probability `1 - psi`, otherwise the law conditioned on exceeding `c` -/
noncomputable def hurdleAbove (μ : Measure ℝ) (psi c : ℝ) : Measure ℝ :=
  ENNReal.ofReal (1 - psi) • Measure.dirac 0 + ENNReal.ofReal psi • cond μ (Set.Ioi c)

theorem hurdleAbove_zero (μ : Measure ℝ) (psi : ℝ) : hurdleAbove μ psi 0 = hurdleLaw μ psi := rfl

theorem hurdleAbove_prob (μ : Measure ℝ) [IsProbabilityMeasure μ] (psi c : ℝ) (h0 : 0 ≤ psi)
    (h1 : psi ≤ 1) (hc : 0 < μ.real (Set.Ioi c)) : IsProbabilityMeasure (hurdleAbove μ psi c) := by
  have hne : μ (Set.Ioi c) ≠ 0 := by
    intro h; rw [measureReal_def, h] at hc; simp at hc
  have : IsProbabilityMeasure (cond μ (Set.Ioi c)) := cond_isProbabilityMeasure hne
  constructor
  rw [hurdleAbove, Measure.add_apply, Measure.smul_apply, Measure.smul_apply, measure_univ,
    measure_univ, smul_eq_mul, smul_eq_mul, mul_one, mul_one,
    ← ENNReal.ofReal_add (by linarith) h0]
  simp

theorem hurdleAbove_Iic (b : Base) (psi c : ℝ) (h0 : 0 ≤ psi) (h1 : psi ≤ 1) (x : ℝ) :
    (hurdleAbove b.law psi c).real (Set.Iic x) = (if 0 ≤ x then 1 - psi else 0) +
      psi * ((if c ≤ x then b.cdf (x : EReal) - b.cdf (c : EReal) else 0) / b.law.real (Set.Ioi c)) := by
  have hc : (cond b.law (Set.Ioi c)).real (Set.Iic x)
      = (if c ≤ x then b.cdf (x : EReal) - b.cdf (c : EReal) else 0) / b.law.real (Set.Ioi c) := by
    rw [measureReal_def, cond_apply measurableSet_Ioi, ENNReal.toReal_mul, ENNReal.toReal_inv,
      div_eq_inv_mul]
    congr 1
    by_cases h : c ≤ x
    · rw [if_pos h, ← b.mass_gap (by exact_mod_cast h), measureReal_def]
      congr 2
      ext y; simp
    · have : Set.Ioi c ∩ Set.Iic x = ∅ := by
        ext y
        simp only [Set.mem_inter_iff, Set.mem_Ioi, Set.mem_Iic, Set.mem_empty_iff_false, iff_false]
        rintro ⟨a, d⟩; linarith
      rw [if_neg h, this]; simp
  rw [← hc]
  unfold hurdleAbove
  have f1 : (ENNReal.ofReal (1 - psi) • Measure.dirac (0 : ℝ)) (Set.Iic x) ≠ ⊤ := by
    rw [Measure.smul_apply, smul_eq_mul]
    exact ENNReal.mul_ne_top ENNReal.ofReal_ne_top (measure_ne_top _ _)
  have f2 : (ENNReal.ofReal psi • cond b.law (Set.Ioi c)) (Set.Iic x) ≠ ⊤ := by
    rw [Measure.smul_apply, smul_eq_mul]
    exact ENNReal.mul_ne_top ENNReal.ofReal_ne_top (measure_ne_top _ _)
  rw [measureReal_add_apply f1 f2, measureReal_ennreal_smul_apply, measureReal_ennreal_smul_apply,
    ENNReal.toReal_ofReal h0, ENNReal.toReal_ofReal (by linarith)]
  congr 1
  rw [measureReal_def, Measure.dirac_apply]
  by_cases h : 0 ≤ x <;> simp [h]

theorem hurdle_ppf_above (b : Base) (psi c : ℝ) (hc : c = if b.discrete then 0 else eps)
    (hpos : 0 < b.law.real (Set.Ioi c)) (h0 : 0 < psi) (h1 : psi ≤ 1) (q : ℝ) (hq0 : 0 < q)
    (hq1 : q < 1) (hq : q ≠ 1 - psi) :
    ∃ Q, hurdlePpf b psi q = some Q ∧ IsQuantile (hurdleAbove b.law psi c) q Q := by
  have hc0 : 0 ≤ c := by
    rw [hc]; split
    · exact le_rfl
    · unfold eps; positivity
  have htail : b.law.real (Set.Ioi c) = 1 - b.cdf (c : EReal) := by
    rw [b.cdf_coe, ← Set.compl_Iic, probReal_compl_eq_one_sub measurableSet_Iic]
  have hlc : (((if b.discrete = true then 0 else eps : ℝ)) : EReal) = (c : EReal) := by rw [hc]
  unfold hurdlePpf
  dsimp only
  rw [if_neg (by push Not; exact ⟨hq0.le, hq1.le⟩)]
  refine ⟨_, rfl, fun x => ?_⟩
  rw [hurdleAbove_Iic b psi c h0.le h1, htail, hlc]
  rw [htail] at hpos
  set F := b.cdf (x : EReal) with hF
  set C := b.cdf (c : EReal) with hC
  have hC0 : 0 ≤ C := b.cdf_nonneg _
  by_cases hge : q ≥ 1 - psi
  · rw [if_pos hge]
    have hgt : 1 - psi < q := lt_of_le_of_ne hge (Ne.symm hq)
    have ht : 0 < (q - (1 - psi)) * (1 - C) / psi := by
      apply div_pos (mul_pos (by linarith) hpos) h0
    have ht1 : (q - (1 - psi)) * (1 - C) / psi ≤ 1 - C := by
      rw [div_le_iff₀ h0]; nlinarith
    rw [b.ppf_inverse _ (by linarith) (by linarith) x, ← b.cdf_coe x, ← hF]
    by_cases hx : c ≤ x
    · rw [if_pos hx, if_pos (hc0.trans hx)]
      have e : psi * ((F - C) / (1 - C)) = psi * (F - C) / (1 - C) := by ring
      rw [e, ← sub_le_iff_le_add', le_div_iff₀ hpos, ← le_sub_iff_add_le', div_le_iff₀ h0]
      constructor <;> intro h <;> linarith
    · push Not at hx
      rw [if_neg (not_le.2 hx)]
      have hFC : F ≤ C := b.cdf_mono (by exact_mod_cast hx.le)
      constructor
      · intro h; linarith
      · intro h
        exfalso
        rw [zero_div, mul_zero, add_zero] at h
        split at h <;> linarith
  · rw [if_neg hge]
    push Not at hge
    constructor
    · intro h
      have hx : (0 : ℝ) ≤ x := by exact_mod_cast h
      rw [if_pos hx]
      have : 0 ≤ psi * ((if c ≤ x then F - C else 0) / (1 - C)) := by
        apply mul_nonneg h0.le (div_nonneg ?_ hpos.le)
        split
        · rename_i h; have : C ≤ F := b.cdf_mono (by exact_mod_cast h)
          linarith
        · exact le_rfl
      linarith
    · intro h
      by_contra hx
      have hx : x < 0 := by
        by_contra h'
        exact hx (by exact_mod_cast not_lt.1 h')
      rw [if_neg (not_le.2 hx), if_neg (by linarith)] at h
      simp at h
      linarith

theorem hurdle_sample (b : Base) (psi c : ℝ) (hc : c = if b.discrete then 0 else eps)
    (hpos : 0 < b.law.real (Set.Ioi c)) (h0 : 0 < psi) (h1 : psi ≤ 1) (n : ℕ) :
    (Measure.pi fun _ : Fin n => unit01).map
        (fun us (i : Fin n) => entry (hurdleRvs b psi (List.ofFn us)) i)
      = Measure.pi (fun _ : Fin n => hurdleAbove b.law psi c) ∧
    ∀ᵐ us ∂(Measure.pi fun _ : Fin n => unit01), ∀ r ∈ hurdleRvs b psi (List.ofFn us),
      ∃ x : ℝ, r = some (x : EReal) := by
  have := hurdleAbove_prob b.law psi c h0.le h1 hpos
  apply inverse_sample
  have h2 : ∀ᵐ q ∂unit01, q ≠ 1 - psi := by
    apply ae_restrict_of_ae
    simp [ae_iff]
  filter_upwards [ae_restrict_mem measurableSet_Ioo, h2] with q hq hne
  exact hurdle_ppf_above b psi c hc hpos h0 h1 q hq.1 hq.2 hne

/-- C89: the values of a Hurdle sample on a discrete base are independent draws from the hurdle law. -/
theorem hurdle_sample_law (b : Base) (hd : b.discrete = true) (hb : HurdleBase b) (psi : ℝ)
    (h0 : 0 < psi) (h1 : psi ≤ 1) (n : ℕ) :
    (Measure.pi fun _ : Fin n => unit01).map
        (fun us (i : Fin n) => entry (hurdleRvs b psi (List.ofFn us)) i)
      = Measure.pi (fun _ : Fin n => hurdleLaw b.law psi) :=
  (hurdle_sample b psi 0 (by simp [hd]) hb.pos h0 h1 n).1

/-- C89: on a continuous base the non-zero values of a Hurdle sample follow the base law conditioned on
exceeding machine epsilon instead of zero; this is the hurdle law when the base has no mass in
(0, eps]. -/
theorem hurdle_sample_continuous (b : Base) (hd : b.discrete = false) (psi : ℝ)
    (hpos : 0 < b.law.real (Set.Ioi eps)) (h0 : 0 < psi) (h1 : psi ≤ 1) (n : ℕ) :
    (Measure.pi fun _ : Fin n => unit01).map
        (fun us (i : Fin n) => entry (hurdleRvs b psi (List.ofFn us)) i)
      = Measure.pi (fun _ : Fin n => hurdleAbove b.law psi eps) ∧
    (b.law (Set.Ioc 0 eps) = 0 → hurdleAbove b.law psi eps = hurdleLaw b.law psi) := by
  refine ⟨(hurdle_sample b psi eps (by simp [hd]) hpos h0 h1 n).1, fun hz => ?_⟩
  have he : (0 : ℝ) < eps := by unfold eps; positivity
  have hae : Set.Ioi eps =ᵐ[b.law] Set.Ioi (0 : ℝ) := by
    have : ∀ᵐ y ∂b.law, y ∉ Set.Ioc 0 eps := by
      rw [ae_iff]
      have : {a | ¬ a ∉ Set.Ioc 0 eps} = Set.Ioc 0 eps := by ext; simp only [not_not]; rfl
      rw [this, hz]
    filter_upwards [this] with y hy
    apply propext
    constructor
    · intro h; exact he.trans h
    · intro h
      have h : 0 < y := h
      show eps < y
      by_contra hn
      exact hy ⟨h, not_lt.1 hn⟩
  unfold hurdleAbove hurdleLaw ProbabilityTheory.cond
  rw [measure_congr hae, Measure.restrict_congr_set hae]

/-- C89: the values of a Censored sample are independent draws from the law of the clipped variable,
when the values of the base sample are independent draws from the base law. -/
theorem censored_sample_law (b : Base) (l u : EReal)
    (hp : (censBounds b l u).1 ≤ (censBounds b l u).2)
    (n : ℕ) :
    (Measure.pi fun _ : Fin n => b.law).map
        (fun xs (i : Fin n) =>
          ((censRvs (censBounds b l u).1 (censBounds b l u).2 (List.ofFn xs)).getD i 0).toReal)
      = Measure.pi (fun _ : Fin n => censLaw b.law l u) := by
  have e : ∀ (xs : Fin n → ℝ) (i : Fin n),
      ((censRvs (censBounds b l u).1 (censBounds b l u).2 (List.ofFn xs)).getD i 0).toReal
        = clipFn (censBounds b l u).1 (censBounds b l u).2 (xs i) := by
    intro xs i
    simp [censRvs, clip_comm hp, clipFn]
  simp only [e]
  have : IsProbabilityMeasure (b.law.map (clipFn (censBounds b l u).1 (censBounds b l u).2)) :=
    Measure.isProbabilityMeasure_map (clip_meas _ _).aemeasurable
  rw [Measure.pi_map_pi
    (f := fun (_ : Fin n) => clipFn (censBounds b l u).1 (censBounds b l u).2)
    (fun _ => (clip_meas _ _).aemeasurable)]
  congr 1
  funext _
  exact (b.censLaw_cut hp).symm

/-! ## Mixture -/

theorem sum_range_list (k : ℕ) (f : ℕ → ℝ) : ((List.range k).map f).sum = ∑ i ∈ Finset.range k, f i := by
  induction k with
  | zero => simp
  | succ k ih => rw [List.range_succ, List.map_append, List.sum_append, ih, Finset.sum_range_succ]; simp

theorem countP_range (k n : ℕ) (h : k ≤ n) (p : ℕ → Prop) [DecidablePred p] :
    ((List.range k).countP (fun m => decide (p m)) : ℝ)
      = ∑ m ∈ Finset.range n, (if m < k then 1 else 0) * (if p m then 1 else 0) := by
  induction n with
  | zero => simp [Nat.le_zero.1 h]
  | succ n ih =>
    rw [Finset.sum_range_succ]
    rcases Nat.lt_or_ge n k with hk | hk
    · have : k = n + 1 := by omega
      subst this
      rw [List.range_succ, List.countP_append]
      have e : ∑ m ∈ Finset.range n, (if m < n + 1 then (1 : ℝ) else 0) * (if p m then 1 else 0)
          = ((List.range n).countP (fun m => decide (p m)) : ℝ) := by
        clear ih h hk
        have : ∀ m ∈ Finset.range n, (if m < n + 1 then (1 : ℝ) else 0) * (if p m then 1 else 0)
            = if p m then 1 else 0 := by
          intro m hm
          rw [if_pos (by have := Finset.mem_range.1 hm; omega), one_mul]
        rw [Finset.sum_congr rfl this, ← sum_range_list]
        induction List.range n with
        | nil => simp
        | cons a l ih =>
          rw [List.map_cons, List.sum_cons, ih, List.countP_cons]
          by_cases h : p a <;> simp [h, add_comm]
      rw [e]
      by_cases h : p n <;> simp [h]
    · rw [ih hk, if_neg (by omega)]; simp

theorem sum_below (c n : ℕ) (h : c ≤ n) : ∑ m ∈ Finset.range n, (if m < c then (1 : ℝ) else 0) = c := by
  have := countP_range c n h (fun _ => True)
  simpa using this.symm

/-- C89: in a Mixture sample of size `n` the expected number of values in any set is `n` times the
probability that the mixture law gives to the set.  The choices of components may depend on each
other as long as each has the right probabilities. -/
theorem mixture_sample_count {Ω : Type} [MeasurableSpace Ω] (P : Measure Ω) [IsProbabilityMeasure P]
    (bs : List Base) (ws : List ℝ) (hw : GoodWeights bs.length ws) (n : ℕ) (hn : 0 < n)
    (idx : Fin n → Ω → ℕ) (hm : ∀ j, Measurable (idx j)) (hlt : ∀ j ω, idx j ω < bs.length)
    (hprob : ∀ j i w, (mixWeights ws)[i]? = some w → P.real {ω | idx j ω = i} = w)
    (S : ℕ → ℕ → Ω → ℝ) (hS : ∀ i k, Measurable (S i k))
    (hlaw : ∀ i b, bs[i]? = some b → ∀ k, P.map (S i k) = b.law)
    (hind : ∀ i k, IndepFun (S i k) (fun ω j => idx j ω) P) (A : Set ℝ) (hA : MeasurableSet A)
    [DecidablePred (· ∈ A)] :
    ∃ out : Ω → List ℝ,
      (∀ ω, mixRvs bs.length (List.ofFn fun j => idx j ω)
        (fun i k => (List.range k).map fun m => S i m ω) = .ok (out ω)) ∧
      (∀ ω, (out ω).length = n) ∧
      ∫ ω, ((out ω).countP (· ∈ A) : ℝ) ∂P = n * (mixLaw (bs.map Base.law) ws).real A := by
  have hne : ∀ ω, (List.ofFn fun j => idx j ω) ≠ [] := by
    intro ω h
    have := congrArg List.length h
    simp at this
    omega
  have hmem : ∀ ω, ∀ i ∈ List.ofFn fun j => idx j ω, i < bs.length := by
    intro ω i hi
    obtain ⟨j, rfl⟩ := (List.mem_ofFn' _ i).1 hi
    exact hlt j ω
  let c : ℕ → Ω → ℕ := fun i ω => (List.ofFn fun j => idx j ω).count i
  have hcn : ∀ i ω, c i ω ≤ n := fun i ω => by
    simpa [c] using (List.count_le_length (a := i) (l := List.ofFn fun j => idx j ω))
  have hc : ∀ i ω, (c i ω : ℝ) = ∑ j : Fin n, if idx j ω = i then (1 : ℝ) else 0 := by
    intro i ω
    have : ∀ l : List ℕ, (l.count i : ℝ) = (l.map fun a => if a = i then (1 : ℝ) else 0).sum := by
      intro l
      induction l with
      | nil => simp
      | cons a l ih =>
        rw [List.map_cons, List.sum_cons, ← ih, List.count_cons]
        by_cases h : a = i <;> simp [h, add_comm]
    simp only [c]
    rw [this, List.map_ofFn, List.sum_ofFn]
    rfl
  refine ⟨fun ω => (List.range bs.length).flatMap fun i => (List.range (c i ω)).map fun m => S i m ω,
    fun ω => mixRvs_ok _ _ (hmem ω) (hne ω) _ (by simp), ?_, ?_⟩
  · intro ω
    obtain ⟨out, h1, h2, h3⟩ := mixture_rvs_length bs.length _ (hmem ω) (hne ω)
      (fun i k => (List.range k).map fun m => S i m ω) (by simp)
    show ((List.range bs.length).flatMap fun i => (List.range (c i ω)).map fun m => S i m ω).length = n
    have h4 : ((List.range bs.length).flatMap fun i => (List.range (c i ω)).map fun m => S i m ω) = out :=
      h3.symm
    rw [h4, h2]
    simp
  have hX : Measurable fun ω (j : Fin n) => idx j ω := measurable_pi_lambda _ hm
  have hall : ∀ B : Set (Fin n → ℕ), MeasurableSet B := fun B => (Set.to_countable B).measurableSet
  let E : ℕ → ℕ → Set Ω := fun i m => {ω | m < c i ω}
  have hEm : ∀ i m, MeasurableSet (E i m) := fun i m =>
    hX (hall {v | m < (List.ofFn v).count i})
  have hpoint : ∀ ω, (((List.range bs.length).flatMap fun i => (List.range (c i ω)).map fun m => S i m ω).countP
      (· ∈ A) : ℝ) = ∑ i ∈ Finset.range bs.length, ∑ m ∈ Finset.range n,
        (E i m ∩ S i m ⁻¹' A).indicator (fun _ => (1 : ℝ)) ω := by
    intro ω
    rw [List.countP_flatMap]
    push_cast
    rw [List.map_map, sum_range_list]
    apply Finset.sum_congr rfl
    intro i _
    simp only [Function.comp, List.countP_map]
    rw [show ((fun x => decide (x ∈ A)) ∘ fun m => S i m ω) = fun m => decide (S i m ω ∈ A) from rfl,
      countP_range _ n (hcn i ω) (fun m => S i m ω ∈ A)]
    apply Finset.sum_congr rfl
    intro m _
    by_cases h1 : m < c i ω <;> by_cases h2 : S i m ω ∈ A <;> simp [E, h1, h2, Set.indicator]
  simp only [hpoint]
  have hint : ∀ i m, Integrable ((E i m ∩ S i m ⁻¹' A).indicator fun _ => (1 : ℝ)) P := fun i m =>
    (integrable_const _).indicator ((hEm i m).inter (hS i m hA))
  rw [integral_finset_sum _ (fun i _ => integrable_finset_sum _ fun m _ => hint i m)]
  simp only [integral_finset_sum _ (fun m (_ : m ∈ Finset.range n) => hint _ m)]
  have hterm : ∀ i b, bs[i]? = some b → ∀ m,
      ∫ ω, (E i m ∩ S i m ⁻¹' A).indicator (fun _ => (1 : ℝ)) ω ∂P = b.law.real A * P.real (E i m) := by
    intro i b hb m
    rw [integral_indicator_const _ ((hEm i m).inter (hS i m hA)), smul_eq_mul, mul_one, Set.inter_comm,
      measureReal_def, measureReal_def, measureReal_def]
    have := (hind i m).measure_inter_preimage_eq_mul A {v | m < (List.ofFn v).count i} hA (hall _)
    have he : (fun ω (j : Fin n) => idx j ω) ⁻¹' {v | m < (List.ofFn v).count i} = E i m := rfl
    rw [he] at this
    rw [this, ENNReal.toReal_mul, ← hlaw i b hb m, Measure.map_apply (hS i m) hA]
  have hcount : ∀ i w, (mixWeights ws)[i]? = some w → ∑ m ∈ Finset.range n, P.real (E i m) = n * w := by
    intro i w hiw
    have h1 : ∀ m, P.real (E i m) = ∫ ω, (if m < c i ω then (1 : ℝ) else 0) ∂P := by
      intro m
      have : (fun ω => if m < c i ω then (1 : ℝ) else 0) = (E i m).indicator fun _ => (1 : ℝ) := by
        funext ω; simp [E, Set.indicator]
      rw [this, integral_indicator_const _ (hEm i m), smul_eq_mul, mul_one]
    have hi1 : ∀ m, Integrable (fun ω => if m < c i ω then (1 : ℝ) else 0) P := by
      intro m
      have : (fun ω => if m < c i ω then (1 : ℝ) else 0) = (E i m).indicator fun _ => (1 : ℝ) := by
        funext ω; simp [E, Set.indicator]
      rw [this]
      exact (integrable_const _).indicator (hEm i m)
    have hset : ∀ j, MeasurableSet {ω | idx j ω = i} := fun j => hm j (MeasurableSet.singleton i)
    have hi2 : ∀ j, (fun ω => if idx j ω = i then (1 : ℝ) else 0)
        = {ω | idx j ω = i}.indicator fun _ => (1 : ℝ) := by
      intro j; funext ω; simp [Set.indicator]
    simp only [h1]
    rw [← integral_finset_sum _ (fun m _ => hi1 m)]
    simp only [sum_below _ n (hcn i _), hc]
    rw [integral_finset_sum _ (fun j _ => by
      rw [hi2]; exact (integrable_const _).indicator (hset j))]
    simp only [hi2, integral_indicator_const _ (hset _), smul_eq_mul, mul_one, hprob _ i w hiw]
    simp
  have hlen : (mixWeights ws).length = bs.length := (mixture_weights ws _ hw).1
  have hsum : ∀ i ∈ Finset.range bs.length,
      ∑ m ∈ Finset.range n, ∫ ω, (E i m ∩ S i m ⁻¹' A).indicator (fun _ => (1 : ℝ)) ω ∂P
        = n * (((List.zip bs (mixWeights ws)).map fun p => p.1.law.real A * p.2).getD i 0) := by
    intro i hi
    have hi := Finset.mem_range.1 hi
    have hb : bs[i]? = some bs[i] := List.getElem?_eq_getElem hi
    have hw' : (mixWeights ws)[i]? = some (mixWeights ws)[i] := List.getElem?_eq_getElem (by omega)
    simp only [hterm i _ hb]
    rw [← Finset.mul_sum, hcount i _ hw']
    have : ((List.zip bs (mixWeights ws)).map fun p => p.1.law.real A * p.2).getD i 0
        = bs[i].law.real A * (mixWeights ws)[i] := by
      rw [List.getD_eq_getElem?_getD, List.getElem?_map, 
        (List.getElem?_zip_eq_some (z := (bs[i], (mixWeights ws)[i]))).2 ⟨hb, hw'⟩]
      rfl
    rw [this]; ring
  rw [Finset.sum_congr rfl hsum, ← Finset.mul_sum]
  congr 1
  have hmix : ((List.zip bs (mixWeights ws)).map fun p => p.1.law.real A * p.2).sum
      = (mixLaw (bs.map Base.law) ws).real A := by
    rw [mixLaw_real bs ws _ hw, mixWeights, List.zip_map_right, List.map_map]
    rfl
  rw [← hmix, ← sum_range_list]
  congr 1
  apply List.ext_getElem
  · simp [hlen]
  · intro i h1 h2
    simp only [List.getElem_map, List.getElem_range]
    rw [List.getD_eq_getElem?_getD, List.getElem?_eq_getElem h2]
    simp

theorem blocks_head (k : ℕ) (idx : List ℕ) (h : ∀ i ∈ idx, i < k) (hne : idx ≠ []) :
    ((List.range k).flatMap fun i => List.replicate (idx.count i) i).head? = some 0 ↔ 0 ∈ idx := by
  constructor
  · intro hh
    have := List.mem_of_head? hh
    simp only [List.mem_flatMap, List.mem_replicate] at this
    obtain ⟨i, -, hi, rfl⟩ := this
    exact List.count_pos_iff.1 (by omega)
  · intro h0
    obtain ⟨k, rfl⟩ : ∃ m, k = m + 1 := ⟨k - 1, by have := h 0 h0; omega⟩
    rw [List.range_succ_eq_map, List.flatMap_cons]
    have : 0 < idx.count 0 := List.count_pos_iff.2 h0
    obtain ⟨c, hc⟩ : ∃ c, idx.count 0 = c + 1 := ⟨idx.count 0 - 1, by omega⟩
    rw [hc, List.replicate_succ]
    rfl

/-- C89, what fails: the values of a Mixture sample are grouped by component, so single entries do not
follow the mixture: with independent choices the first of `n` values comes from the first component
with probability `1 - (1 - w)^n` instead of its weight `w`. -/
theorem mixture_first_component (k n : ℕ) (hn : 0 < n) (ν : Measure ℕ) [IsProbabilityMeasure ν]
    (hν : ∀ᵐ i ∂ν, i < k) :
    (Measure.pi fun _ : Fin n => ν).real
        {v | ∃ out, mixRvs k (List.ofFn v) (fun i m => List.replicate m i) = .ok out ∧
          out.head? = some 0} = 1 - (1 - ν.real {0}) ^ n := by
  have hall : ∀ B : Set (Fin n → ℕ), MeasurableSet B := fun B => (Set.to_countable B).measurableSet
  have hae : {v : Fin n → ℕ | ∃ out, mixRvs k (List.ofFn v) (fun i m => List.replicate m i) = .ok out ∧
          out.head? = some 0} =ᵐ[Measure.pi fun _ : Fin n => ν] ((Set.univ.pi fun _ : Fin n => ({0}ᶜ : Set ℕ))ᶜ : Set (Fin n → ℕ)) := by
    have h4 : ∀ i : Fin n, ∀ᵐ v ∂(Measure.pi fun _ : Fin n => ν), v i < k :=
      fun i => (Measure.quasiMeasurePreserving_eval (fun _ : Fin n => ν) i).ae hν
    filter_upwards [ae_all_iff.2 h4] with v hv
    apply propext
    have hmem : ∀ i ∈ List.ofFn v, i < k := by
      intro i hi
      obtain ⟨j, rfl⟩ := (List.mem_ofFn' v i).1 hi
      exact hv j
    have hne : List.ofFn v ≠ [] := by
      intro h
      have := congrArg List.length h
      simp at this
      omega
    have hok := mixRvs_ok k (List.ofFn v) hmem hne (fun i m => List.replicate m i) (by simp)
    have hb := blocks_head k (List.ofFn v) hmem hne
    show (∃ out, _ ∧ _) ↔ ¬ _
    rw [hok]
    constructor
    · rintro ⟨out, h1, h2⟩ h3
      rw [Except.ok.injEq] at h1
      rw [← h1] at h2
      obtain ⟨j, hj⟩ := (List.mem_ofFn' v 0).1 (hb.1 h2)
      exact h3 j (Set.mem_univ _) hj
    · intro h
      refine ⟨_, rfl, hb.2 ?_⟩
      by_contra h0
      apply h
      intro j _ hj
      exact h0 ((List.mem_ofFn' v 0).2 ⟨j, hj⟩)
  rw [measureReal_congr hae, probReal_compl_eq_one_sub (hall _), measureReal_def, Measure.pi_pi,
    Finset.prod_const, Finset.card_univ, Fintype.card_fin, ENNReal.toReal_pow, ← measureReal_def,
    probReal_compl_eq_one_sub (MeasurableSet.singleton 0)]

/-- with two equally likely components the first of two values comes from the first component three
times out of four -/
example : 1 - (1 - (1 / 2 : ℝ)) ^ 2 = 3 / 4 := by norm_num

/-- C89: the shape of the returned array: Truncated and Hurdle return the requested shape, Censored
the shape of the base sample, Mixture the requested shape exactly if it is a single dimension with at
least one entry; `size=None` gives an array with one entry and a table of numbers comes back flat. -/
theorem sample_shapes (s : Size) :
    (∀ n ds, inverseShape .none = .ok [] ∧ inverseShape (.int n) = .ok [n] ∧ inverseShape (.tuple ds) = .ok ds) ∧
    (∀ n, 0 < n → mixShape (.int n) = .ok [n]) ∧ mixShape (.int 0) = .error .valueError ∧
    inverseShape s = .ok (shape s) ∧ (∀ base, censShape base s = base s) ∧
    (mixShape s = .ok (shape s) ↔ ∃ n, 0 < n ∧ shape s = [n]) := by
  refine ⟨fun _ _ => ⟨rfl, rfl, rfl⟩, fun n hn => ?_, ?_, rfl, fun _ => rfl, ?_⟩
  · simp [mixShape, shape, entries, Nat.pos_iff_ne_zero.1 hn]
  · simp [mixShape, shape, entries]
  unfold mixShape
  constructor
  · intro h
    split at h
    · cases h
    · rename_i h0
      rw [Except.ok.injEq] at h
      exact ⟨entries (shape s), Nat.pos_of_ne_zero h0, h.symm⟩
  · rintro ⟨n, hn, h⟩
    rw [h]
    have : entries [n] = n := by simp [entries]
    rw [this, if_neg (by omega)]

example : mixShape .none = .ok [1] ∧ shape .none = [] := ⟨rfl, rfl⟩
example : mixShape (.tuple [2, 3]) = .ok [6] ∧ shape (.tuple [2, 3]) = [2, 3] := ⟨rfl, rfl⟩

/-! ## The hypotheses are met -/

/-- a die on {0, …, 5}, truncated to {2, 3} -/
example : ((dice 5).discrete = true → Whole ((2 : ℝ) : EReal)) ∧
    0 < (dice 5).law.real (between ((2 : ℝ) : EReal) ((3 : ℝ) : EReal)) := by
  classical
  refine ⟨fun _ => .inr (.inr ⟨2, by norm_num⟩), ?_⟩
  show 0 < (diceLaw 5).real _
  rw [diceLaw_real]
  have h : ∀ k : ℕ, (k : ℝ) ∈ between ((2 : ℝ) : EReal) ((3 : ℝ) : EReal) ↔ (2 : ℝ) ≤ k ∧ (k : ℝ) ≤ 3 := by
    intro k
    simp only [between, Set.mem_ofPred_eq, EReal.coe_le_coe_iff]
  simp only [h]
  norm_num [Finset.sum_range_succ]

/-- a uniform base for the continuous hurdle -/
example : (unif 0 1 one_pos).discrete = false ∧ 0 < (unif 0 1 one_pos).law.real (Set.Ioi eps) := by
  refine ⟨rfl, ?_⟩
  rw [unif_real 0 1 one_pos _ measurableSet_Ioi]
  have : Set.Ioi eps ∩ Set.Icc 0 1 = Set.Ioc eps 1 := by
    ext y
    have he : (0 : ℝ) < eps := by unfold eps; positivity
    simp only [Set.mem_inter_iff, Set.mem_Ioi, Set.mem_Icc, Set.mem_Ioc]
    exact ⟨fun h => ⟨h.1, h.2.2⟩, fun h => ⟨h.1, by linarith [h.1], h.2⟩⟩
  rw [this]
  have h1 : eps ≤ 1 := by unfold eps; norm_num
  have h2 : eps < 1 := by unfold eps; norm_num
  simp [measureReal_def, Real.volume_Ioc]
  rw [ENNReal.toReal_ofReal (by linarith)]
  linarith

/-- the base concentrated at the integer `z` -/
noncomputable def atomBase (z : ℤ) : Base :=
  discreteBase (Measure.dirac (z : ℝ)) ((z : ℝ) : EReal) ((z : ℝ) : EReal)
    (by rw [ae_dirac_eq]; simp) (by rw [ae_dirac_eq]; exact ⟨z, rfl⟩)

/-- two components with equal weights, chosen by one throw of a coin for both values of the sample -/
example : ∃ (P : Measure ℝ) (_ : IsProbabilityMeasure P) (idx : Fin 2 → ℝ → ℕ) (S : ℕ → ℕ → ℝ → ℝ),
    GoodWeights [atomBase 0, atomBase 1].length [1, 1] ∧ (∀ j, Measurable (idx j)) ∧
    (∀ j ω, idx j ω < [atomBase 0, atomBase 1].length) ∧
    (∀ j i w, (mixWeights [1, 1])[i]? = some w → P.real {ω | idx j ω = i} = w) ∧
    (∀ i k, Measurable (S i k)) ∧
    (∀ i b, [atomBase 0, atomBase 1][i]? = some b → ∀ k, P.map (S i k) = b.law) ∧
    (∀ i k, IndepFun (S i k) (fun ω j => idx j ω) P) := by
  classical
  refine ⟨diceLaw 1, inferInstance, fun _ ω => if ω = 0 then 0 else 1, fun i _ _ => (i : ℝ),
    ⟨rfl, by simp, by norm_num⟩, fun _ => ?_, fun _ ω => ?_, fun _ i w h => ?_, fun _ _ => measurable_const,
    fun i b h k => ?_, fun i k => ?_⟩
  · exact Measurable.ite (MeasurableSet.singleton 0) measurable_const measurable_const
  · dsimp only; split <;> simp
  · have hw : mixWeights [1, 1] = [1 / 2, 1 / 2] := by norm_num [mixWeights]
    rw [hw] at h
    match i, h with
    | 0, h =>
      simp at h
      subst h
      rw [diceLaw_real]
      norm_num [Finset.sum_range_succ]
    | 1, h =>
      simp at h
      subst h
      rw [diceLaw_real]
      norm_num [Finset.sum_range_succ]
  · match i, h with
    | 0, h =>
      simp at h
      subst h
      rw [Measure.map_const]
      simp [atomBase, discreteBase]
    | 1, h =>
      simp at h
      subst h
      rw [Measure.map_const]
      simp [atomBase, discreteBase]
  · exact indepFun_const_left _ _

end Verif.Props
