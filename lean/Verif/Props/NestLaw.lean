import Verif.Spec.NestLaw
import Verif.Props.Nest
import Verif.Props.Truncated
import Verif.Props.Censored

/-!
# C146: the law of a nest of truncations or censorings
-/

namespace Verif.Props
open Verif MeasureTheory Verif.Spec Verif.Modifier Verif.NestLaw

/-! ## A truncated distribution is a distribution -/

private theorem trunc_cdf_ext (b : Base) (l u : EReal) (hl : b.discrete = true → Whole l)
    (hm : 0 < b.law.real (between l u)) (x : EReal) :
    (truncF l u (ofBase b)).cdf x = (truncLaw b.law l u).real {y : ℝ | (y : EReal) ≤ x} := by
  rw [truncLaw_real]
  unfold truncF ofBase
  dsimp only
  by_cases h1 : x < adjustLower b.discrete l
  · rw [if_pos h1]
    have : between l u ∩ {y : ℝ | (y : EReal) ≤ x} = ∅ := by
      ext y
      simp only [between, Set.mem_inter_iff, Set.mem_ofPred_eq, Set.mem_empty_iff_false, iff_false]
      rintro ⟨⟨h2, _⟩, h4⟩
      exact absurd (lt_of_lt_of_le h1 (adjust_le _ l)) (not_lt.2 (h2.trans h4))
    rw [this]; simp
  · rw [if_neg h1]
    push Not at h1
    by_cases h2 : x > u
    · rw [if_pos h2]
      have : between l u ∩ {y : ℝ | (y : EReal) ≤ x} = between l u := by
        ext y
        simp only [between, Set.mem_inter_iff, Set.mem_ofPred_eq, and_iff_left_iff_imp]
        rintro ⟨_, h4⟩
        exact h4.trans h2.le
      rw [this, div_self hm.ne']
    · rw [if_neg h2]
      push Not at h2
      rw [b.mass_between hl h1 h2, b.mass_total hl hm]

noncomputable def nestBase (b : Base) (l u : EReal) (hl : b.discrete = true → Whole l)
    (hm : 0 < b.law.real (between l u)) : Base where
  law := truncLaw b.law l u
  prob := truncated_proper b l u hm
  discrete := b.discrete
  lo := max b.lo l
  hi := min b.hi u
  pdf := truncPdf b l u
  ppf := fun q => (truncPpf b l u q).getD 0
  pdf_nonneg := fun x => by
    rw [trunc_pdf_eq b l u hl hm]
    exact Set.indicator_nonneg (fun y _ => div_nonneg (b.pdf_nonneg y) hm.le) x
  in_support := by
    have h1 : ∀ᵐ (y : ℝ) ∂truncLaw b.law l u, b.lo ≤ (y : EReal) ∧ (y : EReal) ≤ b.hi :=
      ProbabilityTheory.cond_absolutelyContinuous.ae_le b.in_support
    have h2 : ∀ᵐ (y : ℝ) ∂truncLaw b.law l u, y ∈ between l u :=
      ProbabilityTheory.ae_cond_mem (meas_between l u)
    filter_upwards [h1, h2] with y h1 h2
    exact ⟨max_le h1.1 h2.1, le_min h1.2 h2.2⟩
  discrete_law := fun hd => truncated_pmf b hd l u (hl hd) hm
  continuous_law := fun hd => by
    refine ⟨?_, (truncated_density b hd l u hm).2⟩
    have : truncPdf b l u = Set.indicator (between l u) (fun y => b.pdf y / b.law.real (between l u)) :=
      funext (trunc_pdf_eq b l u hl hm)
    rw [this]
    exact ((b.continuous_law hd).1.div_const _).indicator (meas_between l u)
  ppf_inverse := fun q h0 h1 => by
    obtain ⟨Q, e, hQ, -, -⟩ := truncated_ppf b l u hl hm q h0 h1
    rw [e]
    exact hQ

/-- `f` computes what the contract of `B` asks for -/
structure Agrees (f : Fns) (B : Base) : Prop where
  discrete : f.discrete = B.discrete
  lo : f.lo = B.lo
  hi : f.hi = B.hi
  logpdf : ∀ x, f.logpdf x = B.logpdf x
  cdf : ∀ x, f.cdf x = B.cdf x
  ppf : ∀ q, 0 < q → q ≤ 1 → f.ppf q = some (B.ppf q)

theorem agrees_base (b : Base) : Agrees (ofBase b) b :=
  ⟨rfl, rfl, rfl, fun _ => rfl, fun _ => rfl, fun q h0 h1 => if_neg (by push Not; exact ⟨h0.le, h1⟩)⟩

theorem agrees_trunc {f : Fns} {B : Base} (h : Agrees f B) {l u : EReal} (hl : B.discrete = true → Whole l)
    (hm : 0 < B.law.real (between l u)) : Agrees (truncF l u f) (nestBase B l u hl hm) := by
  refine ⟨h.discrete, by simp [truncF, nestBase, h.lo], by simp [truncF, nestBase, h.hi], fun x => ?_, fun x => ?_,
    fun q h0 h1 => ?_⟩
  · have : (truncF l u f).logpdf x = truncLogpdf B l u x := by
      simp only [truncF, truncLogpdf, h.discrete, h.cdf, h.logpdf]
    rw [this, truncated_logpdf]
    rfl
  · have : (truncF l u f).cdf x = (truncF l u (ofBase B)).cdf x := by
      simp only [truncF, ofBase, h.discrete, h.cdf]
      by_cases h1 : x < adjustLower B.discrete l <;> by_cases h2 : x > u <;> simp [h1, h2]
    rw [this, trunc_cdf_ext B l u hl hm]
    rfl
  · obtain ⟨Q, e, -, -, -⟩ := truncated_ppf B l u hl hm q h0 h1
    have hΔ := B.mass_total hl hm
    have hlow := B.cdf_nonneg (adjustLower B.discrete l)
    have hup := B.cdf_le_one u
    have hq0 : 0 < B.cdf (adjustLower B.discrete l) + q * (B.cdf u - B.cdf (adjustLower B.discrete l)) := by
      rw [← hΔ]; positivity
    have hq1 : B.cdf (adjustLower B.discrete l) + q * (B.cdf u - B.cdf (adjustLower B.discrete l)) ≤ 1 := by
      rw [← hΔ]; nlinarith
    have : (truncF l u f).ppf q = truncPpf B l u q := by
      simp only [truncF, truncPpf, h.discrete, h.cdf, h.ppf _ hq0 hq1]
    rw [this, e]
    show some Q = some ((truncPpf B l u q).getD 0)
    rw [e]; rfl

/-- the functions of truncations around `f`, outermost first -/
private noncomputable def truncAll (f : Fns) : List (EReal × EReal) → Fns
  | [] => f
  | w :: ws => truncF w.1 w.2 (truncAll f ws)

private theorem meas_insideAll (ws : List (EReal × EReal)) : MeasurableSet (insideAll ws) := by
  induction ws with
  | nil => simp [insideAll]
  | cons w ws ih =>
    have : insideAll (w :: ws) = between w.1 w.2 ∩ insideAll ws := by
      ext y; simp [insideAll, between]
    rw [this]; exact (meas_between _ _).inter ih

private theorem agrees_all (b : Base) : ∀ (ws : List (EReal × EReal)), (b.discrete = true → ∀ w ∈ ws, Whole w.1) →
    0 < b.law.real (insideAll ws) → ∃ B : Base, Agrees (truncAll (ofBase b) ws) B ∧
      B.law = ProbabilityTheory.cond b.law (insideAll ws) ∧ B.discrete = b.discrete ∧
      ∀ x, B.pdf x = Set.indicator (insideAll ws) (fun y => b.pdf y / b.law.real (insideAll ws)) x
  | [], _, _ => ⟨b, agrees_base b, by simp [insideAll, ProbabilityTheory.cond_univ], rfl, by simp [insideAll]⟩
  | w :: ws, hw, hm => by
    have hcons : insideAll (w :: ws) = insideAll ws ∩ between w.1 w.2 := by
      ext y; simp [insideAll, between, and_comm]
    have hm' : 0 < b.law.real (insideAll ws) :=
      lt_of_lt_of_le hm (measureReal_mono (by rw [hcons]; exact Set.inter_subset_left) (measure_ne_top _ _))
    obtain ⟨B, hB, hlaw, hd, hpdf⟩ := agrees_all b ws (fun h w' hw' => hw h w' (by simp [hw'])) hm'
    have hreal : B.law.real (between w.1 w.2) = b.law.real (insideAll (w :: ws)) / b.law.real (insideAll ws) := by
      rw [hlaw, measureReal_def, ProbabilityTheory.cond_apply (meas_insideAll ws), ENNReal.toReal_mul,
        ENNReal.toReal_inv, hcons, div_eq_inv_mul]
      rfl
    have hmB : 0 < B.law.real (between w.1 w.2) := by rw [hreal]; positivity
    have hl : B.discrete = true → Whole w.1 := fun h => hw (hd ▸ h) w (by simp)
    refine ⟨nestBase B w.1 w.2 hl hmB, agrees_trunc hB hl hmB, ?_, hd, fun x => ?_⟩
    · show truncLaw B.law w.1 w.2 = _
      rw [truncLaw, hlaw, ProbabilityTheory.cond_cond_eq_cond_inter (meas_insideAll ws) (meas_between _ _), hcons]
    · show truncPdf B w.1 w.2 x = _
      rw [trunc_pdf_eq B _ _ hl hmB, hreal]
      by_cases h1 : x ∈ between w.1 w.2
      · rw [Set.indicator_of_mem h1, hpdf]
        by_cases h2 : x ∈ insideAll ws
        · rw [Set.indicator_of_mem h2, Set.indicator_of_mem (by rw [hcons]; exact ⟨h2, h1⟩)]
          field_simp
        · rw [Set.indicator_of_notMem h2, Set.indicator_of_notMem (by rw [hcons]; exact fun h => h2 h.1), zero_div]
      · rw [Set.indicator_of_notMem h1, Set.indicator_of_notMem (by rw [hcons]; exact fun h => h1 h.2)]


/-! ## Truncations -/

private theorem expOf_logOf {p : ℝ} (h : 0 ≤ p) : expOf (logOf p) = p := by
  unfold logOf expOf
  by_cases h0 : p = 0
  · simp [h0]
  · simp only [h0, if_false]
    exact Real.exp_log (lt_of_le_of_ne h (Ne.symm h0))

theorem agrees_computes {f : Fns} {B : Base} (h : Agrees f B) : Computes f B.law ∧ ∀ x, f.pdf x = B.pdf x := by
  have hp : f.pdf = B.pdf := by
    ext x; rw [Fns.pdf, h.logpdf, Base.logpdf, expOf_logOf (B.pdf_nonneg x)]
  refine ⟨⟨B.prob, fun hd => ?_, fun hd => ?_, h.cdf, fun q h0 h1 => ⟨_, h.ppf q h0 h1, B.ppf_inverse q h0 h1⟩⟩,
    fun x => by rw [hp]⟩
  · rw [hp]; exact B.discrete_law (h.discrete ▸ hd)
  · rw [hp]; exact ⟨B.pdf_nonneg, (B.continuous_law (h.discrete ▸ hd)).2⟩

private theorem fnsOf_trunc (base : Fns) : ∀ (Ls : List Nest.Layer) (ws : List (EReal × EReal)),
    (Ls.map fun L => (L.kind, L.own)) = (ws.map fun w => (Wrapper.Kind.truncated, [some (Nest.Val.num w.1), some (.num w.2)])) →
    fnsOf base Ls = some (truncAll base ws)
  | [], [], _ => rfl
  | [], _ :: _, h => by simp at h
  | _ :: _, [], h => by simp at h
  | L :: Ls, w :: ws, h => by
    simp only [List.map_cons, List.cons.injEq, Prod.mk.injEq] at h
    simp [fnsOf, truncAll, fnsOf_trunc base Ls ws h.2, h.1.1, h.1.2]

/-- C146: the functions of Truncated objects around each other, to any depth, are those of the distribution conditioned on
the intersection of the intervals the objects hold. -/
theorem nest_truncations (b : Base) (Ls : List Nest.Layer) (ws : List (EReal × EReal))
    (hL : (Ls.map fun L => (L.kind, L.own)) =
      ws.map fun w => (Wrapper.Kind.truncated, [some (Nest.Val.num w.1), some (.num w.2)]))
    (hw : b.discrete = true → ∀ w ∈ ws, Whole w.1) (hm : 0 < b.law.real (insideAll ws)) :
    ∃ f, fnsOf (ofBase b) Ls = some f ∧ f.discrete = b.discrete ∧
      Computes f (ProbabilityTheory.cond b.law (insideAll ws)) ∧
      ∀ x, f.pdf x = Set.indicator (insideAll ws) (fun y => b.pdf y / b.law.real (insideAll ws)) x := by
  obtain ⟨B, hB, hlaw, hd, hpdf⟩ := agrees_all b ws hw hm
  have := agrees_computes hB
  refine ⟨_, fnsOf_trunc _ Ls ws hL, hB.discrete.trans hd, hlaw ▸ this.1, fun x => (this.2 x).trans (hpdf x)⟩

private theorem quantile_eq {μ : Measure ℝ} {q : ℝ} {Q Q' : EReal} (h : IsQuantile μ q Q) (h' : IsQuantile μ q Q') :
    Q = Q' := by
  have key : ∀ {A B : EReal}, (∀ x : ℝ, A ≤ (x : EReal) → B ≤ (x : EReal)) → B ≤ A := by
    intro A B hAB
    induction A with
    | bot =>
      by_contra hlt
      push Not at hlt
      obtain ⟨r, h1, h2⟩ := EReal.lt_iff_exists_real_btwn.1 hlt
      exact absurd (hAB r bot_le) (not_le.2 h2)
    | coe a => exact hAB a le_rfl
    | top => exact le_top
  exact le_antisymm (key fun x hx => (h x).2 ((h' x).1 hx)) (key fun x hx => (h' x).2 ((h x).1 hx))

/-- C146: the order in which truncations are applied does not matter, nor does repeating one. -/
theorem nest_truncation_order (b : Base) (Ls Ls' : List Nest.Layer) (ws ws' : List (EReal × EReal))
    (hL : (Ls.map fun L => (L.kind, L.own)) =
      ws.map fun w => (Wrapper.Kind.truncated, [some (Nest.Val.num w.1), some (.num w.2)]))
    (hL' : (Ls'.map fun L => (L.kind, L.own)) =
      ws'.map fun w => (Wrapper.Kind.truncated, [some (Nest.Val.num w.1), some (.num w.2)]))
    (hww : ∀ w, w ∈ ws ↔ w ∈ ws')
    (hw : b.discrete = true → ∀ w ∈ ws, Whole w.1) (hm : 0 < b.law.real (insideAll ws)) :
    ∃ f f', fnsOf (ofBase b) Ls = some f ∧ fnsOf (ofBase b) Ls' = some f' ∧
      (∀ x, f.pdf x = f'.pdf x) ∧ (∀ x, f.cdf x = f'.cdf x) ∧ ∀ q, 0 < q → q ≤ 1 → f.ppf q = f'.ppf q := by
  have hset : insideAll ws' = insideAll ws := by
    ext y; simp only [insideAll, Set.mem_ofPred_eq]
    exact ⟨fun h w hw => h w ((hww w).1 hw), fun h w hw => h w ((hww w).2 hw)⟩
  obtain ⟨f, hf, -, hc, hp⟩ := nest_truncations b Ls ws hL hw hm
  obtain ⟨f', hf', -, hc', hp'⟩ := nest_truncations b Ls' ws' hL' (fun h w hw' => hw h w ((hww w).2 hw'))
    (by rw [hset]; exact hm)
  rw [hset] at hc' hp'
  refine ⟨f, f', hf, hf', fun x => by rw [hp, hp'], fun x => by rw [hc.cdf, hc'.cdf], fun q h0 h1 => ?_⟩
  obtain ⟨Q, e, hQ⟩ := hc.ppf q h0 h1
  obtain ⟨Q', e', hQ'⟩ := hc'.ppf q h0 h1
  rw [e, e', quantile_eq hQ hQ']

private theorem insideAll_pair (l u l' u' : EReal) : insideAll [(l', u'), (l, u)] = between (max l l') (min u u') := by
  ext y
  simp only [insideAll, between, List.mem_cons, List.not_mem_nil, or_false, Set.mem_ofPred_eq, max_le_iff, le_min_iff]
  constructor
  · intro h; have h1 := h (l', u') (by simp); have h2 := h (l, u) (by simp); exact ⟨⟨h2.1, h1.1⟩, h2.2, h1.2⟩
  · rintro ⟨⟨h1, h2⟩, h3, h4⟩ w (rfl | rfl) <;> simp [*]

private theorem insideAll_all (ws : List (EReal × EReal)) : insideAll (ws ++ [(⊥, ⊤)]) = insideAll ws := by
  ext y
  simp only [insideAll, List.mem_append, List.mem_singleton, Set.mem_ofPred_eq]
  constructor
  · intro h w hw; exact h w (Or.inl hw)
  · rintro h w (hw | rfl)
    · exact h w hw
    · simp

private theorem given_bounds (l u : Option EReal) (k : Wrapper.Kind) (hk : k ≠ .hurdle) :
    Nest.Given (k, [l.map Nest.Val.num, u.map Nest.Val.num]) := by
  refine ⟨by simp [hk], fun h => absurd h hk⟩

private theorem wanted_bounds (l u : Option EReal) (k : Wrapper.Kind) (hk : k ≠ .hurdle) :
    Nest.wanted (k, [l.map Nest.Val.num, u.map Nest.Val.num]) = [some (.num (l.getD ⊥)), some (.num (u.getD ⊤))] := by
  cases k <;> cases l <;> cases u <;> first | rfl | exact absurd rfl hk

/-- C146: `Truncated(Truncated(dist, l1, u1), l2, u2)` is the distribution truncated to the intersection of the intervals. -/
theorem nest_truncated_twice (b : Base) {lf : Nest.Leaf} {vals : List (Option Nest.Val)} (hc : Nest.Complete lf vals)
    (hd : ∀ n ∈ lf.names, n ∉ Nest.ownNames .truncated) (l1 u1 l2 u2 : Option EReal)
    (hw : b.discrete = true → Whole (l1.getD ⊥) ∧ Whole (l2.getD ⊥))
    (hm : 0 < b.law.real (between (max (l1.getD ⊥) (l2.getD ⊥)) (min (u1.getD ⊤) (u2.getD ⊤)))) :
    ∃ Ls f, Nest.build lf vals [(.truncated, [l2.map .num, u2.map .num]), (.truncated, [l1.map .num, u1.map .num])] =
        .ok (Ls, vals) ∧ fnsOf (ofBase b) Ls = some f ∧ f.discrete = b.discrete ∧
      Computes f (truncLaw b.law (max (l1.getD ⊥) (l2.getD ⊥)) (min (u1.getD ⊤) (u2.getD ⊤))) := by
  obtain ⟨Ls, hb, hk, -, -⟩ := nested_kept_partial hc
    [(.truncated, [l2.map .num, u2.map .num]), (.truncated, [l1.map .num, u1.map .num])]
    (by
      intro w hw
      simp only [List.mem_cons, List.not_mem_nil, or_false] at hw
      rcases hw with rfl | rfl <;> exact given_bounds _ _ _ (by simp))
    (by
      simp only [Nest.NoClash, List.tail_cons, List.reverse_cons, List.reverse_nil, List.nil_append, List.map_cons,
        List.map_nil, List.flatten_cons, List.flatten_nil, List.append_nil]
      rw [List.nodup_append]
      exact ⟨hc.nodup, by simp [Nest.ownNames], fun a ha c hc' e => hd a ha (e ▸ hc')⟩)
  obtain ⟨f, hf, hdf, hC, -⟩ := nest_truncations b Ls [(l2.getD ⊥, u2.getD ⊤), (l1.getD ⊥, u1.getD ⊤)]
    (by rw [hk]; simp only [List.map_cons, List.map_nil, wanted_bounds _ _ _ (show Wrapper.Kind.truncated ≠ .hurdle by simp)])
    (by
      intro h w hw'
      simp only [List.mem_cons, List.not_mem_nil, or_false] at hw'
      rcases hw' with rfl | rfl
      · exact (hw h).2
      · exact (hw h).1)
    (by rw [insideAll_pair]; exact hm)
  rw [insideAll_pair] at hC
  exact ⟨Ls, f, hb, hf, hdf, hC⟩

/-- C146: which functions a Truncated or Censored around a Truncated or Censored has: those of the outer kind with the outer
bounds around those of the inner kind with the inner bounds.  (The theorems below are about these functions.) -/
theorem nest_pair_functions (b : Base) {lf : Nest.Leaf} {vals : List (Option Nest.Val)} (hc : Nest.Complete lf vals)
    (hd : ∀ n ∈ lf.names, n ∉ Nest.ownNames .truncated) (k1 k2 : Wrapper.Kind) (h1 : k1 ≠ .hurdle) (h2 : k2 ≠ .hurdle)
    (l1 u1 l2 u2 : Option EReal) (around : Wrapper.Kind → EReal → EReal → Fns → Fns)
    (ht : around .truncated = truncF) (hce : around .censored = censF) :
    ∃ Ls, Nest.build lf vals [(k2, [l2.map .num, u2.map .num]), (k1, [l1.map .num, u1.map .num])] = .ok (Ls, vals) ∧
      fnsOf (ofBase b) Ls = some (around k2 (l2.getD ⊥) (u2.getD ⊤) (around k1 (l1.getD ⊥) (u1.getD ⊤) (ofBase b))) := by
  have hn : Nest.ownNames k1 = Nest.ownNames .truncated := by cases k1 <;> first | rfl | exact absurd rfl h1
  obtain ⟨Ls, hb, hk, -, -⟩ := nested_kept_partial hc
    [(k2, [l2.map .num, u2.map .num]), (k1, [l1.map .num, u1.map .num])]
    (by
      intro w hw
      simp only [List.mem_cons, List.not_mem_nil, or_false] at hw
      rcases hw with rfl | rfl
      · exact given_bounds _ _ _ h2
      · exact given_bounds _ _ _ h1)
    (by
      simp only [Nest.NoClash, List.tail_cons, List.reverse_cons, List.reverse_nil, List.nil_append, List.map_cons,
        List.map_nil, List.flatten_cons, List.flatten_nil, List.append_nil, hn]
      rw [List.nodup_append]
      exact ⟨hc.nodup, by simp [Nest.ownNames], fun a ha c hc' e => hd a ha (e ▸ hc')⟩)
  refine ⟨Ls, hb, ?_⟩
  simp only [List.map_cons, List.map_nil, wanted_bounds _ _ _ h1, wanted_bounds _ _ _ h2] at hk
  have hlen := congrArg List.length hk
  simp only [List.length_map, List.length_cons, List.length_nil] at hlen
  obtain ⟨L2, L1, rfl⟩ := List.length_eq_two.1 hlen
  simp only [List.map_cons, List.map_nil, List.cons.injEq, Prod.mk.injEq, and_true] at hk
  obtain ⟨⟨a1, a2⟩, a3, a4⟩ := hk
  simp only [fnsOf, a1, a2, a3, a4]
  cases k1 <;> cases k2 <;> simp_all

/-- C146: of three truncations the innermost has no effect: `Truncated(Truncated(Truncated(dist, l1, u1), l2, u2), l3, u3)`
is the distribution truncated to the intersection of the outer two intervals. -/
theorem nest_truncated_thrice (b : Base) {lf : Nest.Leaf} {vals : List (Option Nest.Val)} (hc : Nest.Complete lf vals)
    (hd : ∀ n ∈ lf.names, n ∉ Nest.ownNames .truncated) (hne : lf.names ≠ []) (l1 u1 l2 u2 l3 u3 : Option EReal)
    (hw : b.discrete = true → Whole (l2.getD ⊥) ∧ Whole (l3.getD ⊥))
    (hm : 0 < b.law.real (between (max (l2.getD ⊥) (l3.getD ⊥)) (min (u2.getD ⊤) (u3.getD ⊤)))) :
    ∃ Ls f, Nest.build lf vals [(.truncated, [l3.map .num, u3.map .num]), (.truncated, [l2.map .num, u2.map .num]),
        (.truncated, [l1.map .num, u1.map .num])] = .ok (Ls, vals) ∧ fnsOf (ofBase b) Ls = some f ∧
      f.discrete = b.discrete ∧
      Computes f (truncLaw b.law (max (l2.getD ⊥) (l3.getD ⊥)) (min (u2.getD ⊤) (u3.getD ⊤))) := by
  have hn : Wrapper.Kind.truncated ≠ .hurdle := by simp
  obtain ⟨L3, L2, L1, hb, h3, h2, h1, hk3, hk2, hk1⟩ := nested_inner_lost hc
    (given_bounds l1 u1 .truncated hn) (given_bounds l2 u2 .truncated hn) (given_bounds l3 u3 .truncated hn) rfl hd hne
  rw [if_neg hn] at h1
  rw [wanted_bounds _ _ _ hn] at h2 h3
  have hset : insideAll [(l3.getD ⊥, u3.getD ⊤), (l2.getD ⊥, u2.getD ⊤), ((⊥ : EReal), (⊤ : EReal))] =
      between (max (l2.getD ⊥) (l3.getD ⊥)) (min (u2.getD ⊤) (u3.getD ⊤)) := by
    rw [← insideAll_pair]; exact insideAll_all [_, _]
  obtain ⟨f, hf, hdf, hC, -⟩ := nest_truncations b [L3, L2, L1]
    [(l3.getD ⊥, u3.getD ⊤), (l2.getD ⊥, u2.getD ⊤), ((⊥ : EReal), (⊤ : EReal))]
    (by simp [hk1, hk2, hk3, h1, h2, h3])
    (by
      intro h w hw'
      simp only [List.mem_cons, List.not_mem_nil, or_false] at hw'
      rcases hw' with rfl | rfl | rfl
      · exact (hw h).2
      · exact (hw h).1
      · exact Or.inr (Or.inl rfl))
    (by rw [hset]; exact hm)
  rw [hset] at hC
  exact ⟨_, f, hb, hf, hdf, hC⟩

/-! ## Censorings -/

/-- C146: censoring a censored object is censoring once to the intersection of the intervals, whatever the object is, if
the intersection (cut to the support) is an interval, of at least two points for a discrete object. -/
theorem nest_censorings (f : Fns) (l u l' u' : EReal)
    (h : if f.discrete then max f.lo (max l l') ≤ min f.hi (min u u') - 1 else max f.lo (max l l') ≤ min f.hi (min u u')) :
    censF l' u' (censF l u f) = censF (max l l') (min u u') f := by
  have hU1 : min f.hi (min u u') - 1 ≤ min f.hi (min u u') := adjust_le true _
  have hLU : max f.lo (max l l') ≤ min f.hi (min u u') := by
    split at h
    · exact h.trans hU1
    · exact h
  have eL : max (max f.lo l) l' = max f.lo (max l l') := max_assoc _ _ _
  have eU : min (min f.hi u) u' = min f.hi (min u u') := min_assoc _ _ _
  have hL : max f.lo l ≤ max f.lo (max l l') := max_le_max le_rfl (le_max_left _ _)
  have hU : min f.hi (min u u') ≤ min f.hi u := min_le_min le_rfl (min_le_left _ _)
  unfold censF
  simp only [eL, eU]
  generalize max f.lo (max l l') = L' at *
  generalize min f.hi (min u u') = U' at *
  generalize max f.lo l = L at *
  generalize min f.hi u = U at *
  congr 1
  · funext x
    have key : ∀ e : EReal, L' ≤ e → e ≤ U' → (if e < L then 0 else if e > U then 1 else f.cdf e) = f.cdf e := by
      intro e h1 h2
      rw [if_neg (not_lt.2 (hL.trans h1)), if_neg (not_lt.2 (h2.trans hU))]
    rw [key L' le_rfl hLU, key U' hLU le_rfl]
    have hup : f.discrete = true →
        (if U' - 1 < L then 0 else if U' - 1 > U then 1 else f.cdf (U' - 1)) = f.cdf (U' - 1) :=
      fun hd => key _ (by rw [if_pos hd] at h; exact h) hU1
    have hin : ¬ ((x : EReal) < L' ∨ (x : EReal) > U') → (x : EReal) ≠ L' → (x : EReal) ≠ U' →
        ¬ ((x : EReal) < L ∨ (x : EReal) > U) ∧ (x : EReal) ≠ L ∧ (x : EReal) ≠ U := by
      intro h1 h2 h3
      push Not at h1
      have h4 := lt_of_le_of_ne h1.1 (Ne.symm h2)
      have h5 := lt_of_le_of_ne h1.2 h3
      have h6 := lt_of_le_of_lt hL h4
      have h7 := lt_of_lt_of_le h5 hU
      exact ⟨by push Not; exact ⟨h6.le, h7.le⟩, h6.ne', h7.ne⟩
    by_cases h3 : (x : EReal) = U'
    · cases hd : f.discrete with
      | true => simp only [h3, if_true, hup hd]
      | false => simp [h3]
    by_cases h2 : (x : EReal) = L'
    · have h4 : L' ≠ U' := h2 ▸ h3
      simp only [h2, h4, if_false, if_true]
    by_cases h1 : (x : EReal) < L' ∨ (x : EReal) > U'
    · simp only [h3, h2, h1, if_false, if_true, ite_self]
    · obtain ⟨a1, a2, a3⟩ := hin h1 h2 h3
      simp only [h3, h2, h1, a1, a2, a3, if_false, ite_self]
  · funext x
    by_cases h1 : x < L'
    · simp [h1]
    by_cases h2 : x > U'
    · simp [h1, h2]
    simp only [h1, h2, if_false]
    push Not at h1 h2
    rw [if_neg (not_lt.2 (hL.trans h1)), if_neg (not_lt.2 (h2.trans hU))]
  · funext q
    rw [Option.map_map]
    congr 1
    funext v
    simp only [Function.comp, clip]
    rw [max_min_distrib_right, max_assoc, max_eq_right hL, ← min_assoc, min_eq_left (hU.trans (le_max_left _ _))]

/-! ## Truncations of censored distributions -/

/-- C146: `Truncated(Censored(dist, None, u), None, u)` should be the censored distribution itself.  Its density is larger
by the factor `1 / P(X ≤ u)`, because the censored cdf at its upper bound lacks the mass collected there. -/
theorem nest_trunc_cens_factor (b : Base) (u : EReal) (hlo : b.lo ≤ u) (hhi : u ≤ b.hi) (hu : 0 < b.cdf u) (x : ℝ) :
    (truncF ⊥ u (censF ⊥ u (ofBase b))).pdf x = (censF ⊥ u (ofBase b)).pdf x / b.cdf u := by
  have hL : max b.lo ⊥ = b.lo := max_eq_left bot_le
  have hU : min b.hi u = u := min_eq_right hhi
  have c1 : (censF ⊥ u (ofBase b)).cdf u = b.cdf u := by
    simp only [censF, ofBase, hL, hU, if_neg (not_lt.2 hlo), gt_iff_lt, lt_irrefl, if_false]
  have c0 : (censF ⊥ u (ofBase b)).cdf ⊥ = 0 := by
    simp only [censF, ofBase, hL, hU, b.cdf_bot, gt_iff_lt, not_lt_bot, if_false, ite_self]
  have ha : adjustLower b.discrete ⊥ = ⊥ := by unfold adjustLower; split <;> simp
  have hx : (x : EReal) > u → (censF ⊥ u (ofBase b)).logpdf x = none := by
    intro h
    have h1 : (x : EReal) ≠ u := h.ne'
    have h2 : (x : EReal) ≠ b.lo := fun e => absurd (e ▸ hlo) (not_le.2 h)
    simp [censF, ofBase, hL, hU, h1, h2, h]
  unfold Fns.pdf
  have : (truncF ⊥ u (censF ⊥ u (ofBase b))).logpdf x =
      ((censF ⊥ u (ofBase b)).logpdf x).map fun v => v - Real.log (b.cdf u) := by
    show (if (x : EReal) < ⊥ ∨ (x : EReal) > u then none else ((censF ⊥ u (ofBase b)).logpdf x).map fun v =>
      v - Real.log ((censF ⊥ u (ofBase b)).cdf u - (censF ⊥ u (ofBase b)).cdf (adjustLower b.discrete ⊥))) = _
    rw [ha, c0, c1, sub_zero]
    by_cases h : (x : EReal) > u
    · simp [h, hx h]
    · simp [h]
  rw [this]
  cases (censF ⊥ u (ofBase b)).logpdf x with
  | none => simp [expOf]
  | some v => simp only [Option.map_some, expOf, Real.exp_sub, Real.exp_log hu]

/-- C146: for a discrete distribution with mass above `u` the probabilities of `Truncated(Censored(dist, None, u), None, u)`
add up to `1 / P(X ≤ u)`, more than one. -/
theorem nest_trunc_cens_sum (b : Base) (hd : b.discrete = true) (u : EReal) (hlo : b.lo < u) (hhi : u ≤ b.hi)
    (hl : Whole b.lo) (hw : Whole u) (hu : 0 < b.cdf u) (hu1 : b.cdf u < 1) :
    HasSum (fun k : ℤ => (truncF ⊥ u (censF ⊥ u (ofBase b))).pdf (k : ℝ)) (1 / b.cdf u) ∧ 1 < 1 / b.cdf u := by
  have hL : (censBounds b ⊥ u).1 = b.lo := max_eq_left bot_le
  have hU : (censBounds b ⊥ u).2 = u := min_eq_right hhi
  refine ⟨?_, by rw [lt_div_iff₀ hu]; linarith⟩
  simp only [nest_trunc_cens_factor b u hlo.le hhi hu]
  exact (censored_sum_one b hd ⊥ u (by rw [Proper, hL, hU]; exact hlo) (by rw [hL]; exact hl)
    (by rw [hU]; exact hw)).div_const _

private theorem cens_whole (b : Base) (hd : b.discrete = true) (l u : EReal) (hp : Proper b l u)
    (hl : Whole (censBounds b l u).1) (hu : Whole (censBounds b l u).2) :
    ∀ᵐ (y : ℝ) ∂censLaw b.law l u, ∃ k : ℤ, y = k := by
  rw [b.censLaw_cut hp.le]
  unfold censLaw
  rw [ae_map_iff (clip_meas _ _).aemeasurable]
  · filter_upwards [(b.discrete_law hd).1] with y ⟨k, hk⟩
    have hval : ∀ e : EReal, Whole e → ∃ k : ℤ, e.toReal = k := by
      rintro e (rfl | rfl | ⟨n, rfl⟩)
      · exact ⟨0, by simp⟩
      · exact ⟨0, by simp⟩
      · exact ⟨n, by simp⟩
    rcases le_total (y : EReal) (censBounds b l u).1 with h | h
    · rw [clip_low hp.le h]; exact hval _ hl
    · rcases le_total (y : EReal) (censBounds b l u).2 with h' | h'
      · rw [clip_mid h h']; exact ⟨k, hk⟩
      · rw [clip_up hp.le h']; exact hval _ hu
  · have : {x : ℝ | ∃ k : ℤ, x = k} = Set.range ((↑) : ℤ → ℝ) := by
      ext x; simp [eq_comm]
    rw [this]; exact (Set.countable_range _).measurableSet

private theorem cens_adjust (b : Base) (l u l' : EReal) (hp : Proper b l u)
    (hd : b.discrete = true → Whole (censBounds b l u).1 ∧ Whole (censBounds b l u).2 ∧ Whole l')
    (hc : b.discrete = false → l' ≠ (censBounds b l u).1 ∧ l' ≠ (censBounds b l u).2) :
    ∀ᵐ (y : ℝ) ∂censLaw b.law l u, adjustLower b.discrete l' < (y : EReal) ↔ l' ≤ (y : EReal) := by
  have : IsProbabilityMeasure (censLaw b.law l u) :=
    Measure.isProbabilityMeasure_map (clip_meas l u).aemeasurable
  cases h : b.discrete with
  | true =>
    exact (discreteBase (censLaw b.law l u) ⊥ ⊤ (by simp) (cens_whole b h l u hp (hd h).1 (hd h).2.1)).adjust_ae l'
      fun _ => (hd h).2.2
  | false =>
    have h0 : ∀ᵐ (y : ℝ) ∂censLaw b.law l u, (y : EReal) ≠ l' := by
      induction l' with
      | bot => simp
      | top => simp
      | coe r =>
        have h1 : (censLaw b.law l u).real {r} = 0 := by
          rw [b.censLaw_cut hp.le, b.cens_point hp, if_neg (hc h).1, if_neg (hc h).2]
          split
          · rfl
          · simp [measureReal_def, b.atomless h r]
        rw [measureReal_eq_zero_iff] at h1
        rw [ae_iff]
        convert h1 using 2
        ext y; simp
    filter_upwards [h0] with y hy
    simp only [adjustLower]
    exact ⟨le_of_lt, fun h => lt_of_le_of_ne h (Ne.symm hy)⟩

private theorem cens_cdf_ext (b : Base) (l u : EReal) (hp : Proper b l u) (e : EReal) (he : e ≠ (censBounds b l u).2) :
    (censF l u (ofBase b)).cdf e = (censLaw b.law l u).real {y : ℝ | (y : EReal) ≤ e} := by
  have : IsProbabilityMeasure (censLaw b.law l u) :=
    Measure.isProbabilityMeasure_map (clip_meas l u).aemeasurable
  have hL : (censBounds b l u).1 ≠ ⊤ := ne_top_of_lt hp
  have hU : (censBounds b l u).2 ≠ ⊥ := ne_bot_of_gt hp
  show (if e < (censBounds b l u).1 then 0 else if e > (censBounds b l u).2 then 1 else b.cdf e) = _
  induction e with
  | bot => simp [b.cdf_bot]
  | top => simp [b.cdf_top]
  | coe x =>
    have h1 := (censored_cdf_partial b l u hp.le hL hU x).2 (Or.inl he)
    have h2 : {y : ℝ | (y : EReal) ≤ (x : EReal)} = Set.Iic x := by ext y; simp
    rw [h2, ← h1]
    rfl

/-- C146: truncating a censored distribution is right if the bounds of the truncation are not those of the censoring: the
density is that of the censored distribution divided by the probability of the interval, and the cdf is that of the
conditioned law except at the upper bound of the censoring.  (A lower bound in common is no problem for a discrete
distribution.) -/
theorem nest_trunc_cens (b : Base) (l u l' u' : EReal) (hp : Proper b l u)
    (hd : b.discrete = true → Whole (censBounds b l u).1 ∧ Whole (censBounds b l u).2 ∧ Whole l')
    (hc : b.discrete = false → l' ≠ (censBounds b l u).1 ∧ l' ≠ (censBounds b l u).2)
    (hu' : u' ≠ (censBounds b l u).2) (ha : adjustLower b.discrete l' ≠ (censBounds b l u).2)
    (hm : 0 < (censLaw b.law l u).real (between l' u')) (x : ℝ) :
    ((truncF l' u' (censF l u (ofBase b))).pdf x = Set.indicator (between l' u')
      (fun y => (censF l u (ofBase b)).pdf y / (censLaw b.law l u).real (between l' u')) x) ∧
    ((x : EReal) ≠ (censBounds b l u).2 →
      (truncF l' u' (censF l u (ofBase b))).cdf x = (truncLaw (censLaw b.law l u) l' u').real (Set.Iic x)) := by
  have : IsProbabilityMeasure (censLaw b.law l u) :=
    Measure.isProbabilityMeasure_map (clip_meas l u).aemeasurable
  have hae := cens_adjust b l u l' hp hd hc
  have hcdf := cens_cdf_ext b l u hp
  set μ := censLaw b.law l u
  set g := censF l u (ofBase b) with hg
  have hgd : g.discrete = b.discrete := rfl
  set low := adjustLower b.discrete l' with hlow
  have mass : ∀ e, low ≤ e → e ≤ u' → μ.real (between l' u' ∩ {y : ℝ | (y : EReal) ≤ e}) =
      μ.real {y : ℝ | (y : EReal) ≤ e} - μ.real {y : ℝ | (y : EReal) ≤ low} := by
    intro e h1 h2
    have hsub : {y : ℝ | (y : EReal) ≤ low} ⊆ {y : ℝ | (y : EReal) ≤ e} := fun y hy => le_trans hy h1
    rw [← measureReal_sdiff hsub (meas_le low)]
    apply measureReal_congr
    filter_upwards [hae] with y hy
    apply propext
    show (l' ≤ (y : EReal) ∧ (y : EReal) ≤ u') ∧ (y : EReal) ≤ e ↔ (y : EReal) ≤ e ∧ ¬ (y : EReal) ≤ low
    rw [not_le, hy]
    constructor
    · rintro ⟨⟨h3, _⟩, h4⟩; exact ⟨h4, h3⟩
    · rintro ⟨h3, h4⟩; exact ⟨⟨h4, h3.trans h2⟩, h3⟩
  have hlu : low < u' := by
    by_contra hlt
    push Not at hlt
    have h0 : μ.real (between l' u') = 0 := by
      rw [measureReal_eq_zero_iff]
      refine measure_mono_null ?_ (ae_iff.1 hae)
      rintro y ⟨h1, h2⟩
      simp only [Set.mem_ofPred_eq]
      intro h
      exact absurd (h.2 h1) (not_lt.2 (h2.trans hlt))
    linarith
  have total : μ.real (between l' u') = g.cdf u' - g.cdf low := by
    rw [hcdf u' hu', hcdf low ha, ← mass u' hlu.le le_rfl]
    congr 1
    ext y
    simp only [between, Set.mem_inter_iff, Set.mem_ofPred_eq]; tauto
  constructor
  · unfold Fns.pdf truncF
    dsimp only
    rw [hgd, ← hlow, ← total]
    by_cases h : x ∈ between l' u'
    · have h' : ¬ ((x : EReal) < l' ∨ (x : EReal) > u') := by push Not; exact h
      rw [if_neg h', Set.indicator_of_mem h]
      cases g.logpdf x with
      | none => simp [expOf]
      | some v => simp only [Option.map_some, expOf, Real.exp_sub, Real.exp_log hm]
    · have h' : ((x : EReal) < l' ∨ (x : EReal) > u') := by
        by_contra h'; push Not at h'; exact h h'
      rw [if_pos h', Set.indicator_of_notMem h]
      rfl
  · intro hx
    have hset : Set.Iic x = {y : ℝ | (y : EReal) ≤ (x : EReal)} := by ext y; simp
    rw [truncLaw_real, hset, total]
    unfold truncF
    dsimp only
    rw [hgd, ← hlow]
    by_cases h1 : (x : EReal) < low
    · rw [if_pos h1]
      have : between l' u' ∩ {y : ℝ | (y : EReal) ≤ (x : EReal)} = ∅ := by
        ext y
        simp only [between, Set.mem_inter_iff, Set.mem_ofPred_eq, Set.mem_empty_iff_false, iff_false]
        rintro ⟨⟨h2, _⟩, h4⟩
        exact absurd (lt_of_lt_of_le h1 (adjust_le _ l')) (not_lt.2 (h2.trans h4))
      rw [this]; simp
    · rw [if_neg h1]
      push Not at h1
      by_cases h2 : (x : EReal) > u'
      · rw [if_pos h2]
        have : between l' u' ∩ {y : ℝ | (y : EReal) ≤ (x : EReal)} = between l' u' := by
          ext y
          simp only [between, Set.mem_inter_iff, Set.mem_ofPred_eq, and_iff_left_iff_imp]
          rintro ⟨_, h4⟩
          exact h4.trans h2.le
        rw [this, ← total, div_self hm.ne']
      · rw [if_neg h2]
        push Not at h2
        rw [mass _ h1 h2, hcdf _ hx, hcdf low ha]

/-- C146: for a continuous distribution a lower bound in common is wrong as well: the density of
`Truncated(Censored(dist, l, None), l, None)` is that of the censored distribution, with its mass at `l`, divided by
`1 - P(X ≤ l)`, while the cdf is that of the truncated distribution, without the mass at `l`. -/
theorem nest_trunc_cens_lower (b : Base) (hd : b.discrete = false) (l : EReal) (hlo : b.lo ≤ l) (hhi : l ≤ b.hi)
    (hl : b.cdf l < 1) (x : ℝ) :
    ((l ≤ (x : EReal)) → (truncF l ⊤ (censF l ⊤ (ofBase b))).pdf x = (censF l ⊤ (ofBase b)).pdf x / (1 - b.cdf l)) ∧
      (truncF l ⊤ (censF l ⊤ (ofBase b))).cdf x = truncCdf b l ⊤ x := by
  have hL : max b.lo l = l := max_eq_right hlo
  have hU : min b.hi ⊤ = b.hi := min_eq_left le_top
  have ha : adjustLower b.discrete l = l := by rw [hd]; rfl
  have hone : ∀ e : EReal, b.hi < e → b.cdf e = 1 := by
    intro e he
    have : {y : ℝ | (y : EReal) ≤ e} =ᵐ[b.law] Set.univ := by
      filter_upwards [b.in_support] with y hy
      exact propext ⟨fun _ => trivial, fun _ => hy.2.trans he.le⟩
    rw [Base.cdf, measureReal_congr this]; simp
  have key : ∀ e : EReal, l ≤ e → (censF l ⊤ (ofBase b)).cdf e = b.cdf e := by
    intro e he
    simp only [censF, ofBase, hL, hU, if_neg (not_lt.2 he)]
    split
    · rename_i h; exact (hone e h).symm
    · rfl
  have hgd : (censF l ⊤ (ofBase b)).discrete = b.discrete := rfl
  constructor
  · intro hx
    have hpos : 0 < 1 - b.cdf l := by linarith
    unfold Fns.pdf truncF
    dsimp only
    rw [hgd, ha, key ⊤ le_top, key l le_rfl, b.cdf_top, if_neg (by simp [hx])]
    cases (censF l ⊤ (ofBase b)).logpdf x with
    | none => simp [expOf]
    | some v => simp only [Option.map_some, expOf, Real.exp_sub, Real.exp_log hpos]
  · unfold truncF truncCdf
    dsimp only
    rw [hgd, ha, key ⊤ le_top, key l le_rfl]
    by_cases h : (x : EReal) < l
    · simp [h]
    · rw [key x (not_lt.1 h)]

/-- C146: censoring a truncated distribution is right: the mass function or density and the quantiles are those of the
clipped variable of the truncated distribution; the cdf is right except at the upper bound. -/
theorem nest_cens_trunc (b : Base) (l u l' u' : EReal) (hl : b.discrete = true → Whole l)
    (hm : 0 < b.law.real (between l u)) (f : Fns) (hf : f = censF l' u' (truncF l u (ofBase b)))
    (hp : f.lo < f.hi) :
    f.lo = max (max b.lo l) l' ∧ f.hi = min (min b.hi u) u' ∧
    (b.discrete = true → Whole f.hi → ∀ x, f.pdf x = (censLaw (truncLaw b.law l u) l' u').real {x}) ∧
    (b.discrete = false → IsDensity (censRef f.lo f.hi) (censLaw (truncLaw b.law l u) l' u') f.pdf) ∧
    (∀ x : ℝ, (x : EReal) ≠ f.hi → f.cdf x = (censLaw (truncLaw b.law l u) l' u').real (Set.Iic x)) ∧
    ∀ q, 0 < q → q ≤ 1 → ∃ Q, f.ppf q = some Q ∧ IsQuantile (censLaw (truncLaw b.law l u) l' u') q Q := by
  have hA := agrees_trunc (agrees_base b) hl hm
  set B := nestBase b l u hl hm with hB
  set g := truncF l u (ofBase b)
  have hg : g = ⟨B.discrete, B.lo, B.hi, B.logpdf, B.cdf, g.ppf⟩ := by
    show Fns.mk g.discrete g.lo g.hi g.logpdf g.cdf g.ppf = _
    rw [hA.discrete, hA.lo, hA.hi, funext hA.logpdf, funext hA.cdf]
  have h1 : f.lo = (censBounds B l' u').1 := by rw [hf]; rfl
  have h2 : f.hi = (censBounds B l' u').2 := by rw [hf]; rfl
  have hlaw : truncLaw b.law l u = B.law := rfl
  have hdisc : b.discrete = B.discrete := rfl
  have hP : Proper B l' u' := by rw [Proper, ← h1, ← h2]; exact hp
  have hpdf : f.pdf = censPdf B (censBounds B l' u').1 (censBounds B l' u').2 := by
    funext x
    rw [hf, hg]
    rfl
  have hcdf : ∀ x : ℝ, f.cdf x = censCdf B (censBounds B l' u').1 (censBounds B l' u').2 x := by
    intro x
    rw [hf, hg]
    rfl
  have hL : (censBounds B l' u').1 ≠ ⊤ := ne_top_of_lt hP
  have hU : (censBounds B l' u').2 ≠ ⊥ := ne_bot_of_gt hP
  refine ⟨by rw [hf]; rfl, by rw [hf]; rfl, fun hd hw x => ?_, fun hd => ?_, fun x hx => ?_, fun q h0 h1' => ?_⟩
  · rw [hpdf, hlaw]
    exact censored_mass B hd l' u' hP (h2 ▸ hw) x
  · rw [hpdf, hlaw, h1, h2]
    exact censored_density B hd l' u' hP
  · rw [hcdf, hlaw]
    exact (censored_cdf_partial B l' u' hP.le hL hU x).2 (Or.inl (h2 ▸ hx))
  · refine ⟨_, ?_, (censored_ppf B l' u' hP.le hL hU q h0 h1').1⟩
    rw [hf]
    show (g.ppf q).map _ = _
    rw [hA.ppf q h0 h1']
    simp only [Option.map_some, hA.lo, hA.hi]
    rfl

/-! ## The hypotheses are met -/

/-- three truncations of a die on {0, …, 5}: the innermost interval [0, 1] does not meet the others, yet there is no error
and the result is the die conditioned on [2, 4] -/
example : ∃ Ls f, Nest.build Nest.normal [some (.num 0), some (.num 1)]
      [(.truncated, [some (.num ((2 : ℝ) : EReal)), none]), (.truncated, [none, some (.num ((4 : ℝ) : EReal))]),
        (.truncated, [some (.num ((0 : ℝ) : EReal)), some (.num ((1 : ℝ) : EReal))])] =
        .ok (Ls, [some (.num 0), some (.num 1)]) ∧ fnsOf (ofBase (dice 5)) Ls = some f ∧
      f.discrete = true ∧ Computes f (truncLaw (dice 5).law ((2 : ℝ) : EReal) ((4 : ℝ) : EReal)) := by
  have h := nest_truncated_thrice (dice 5) (lf := Nest.normal) (vals := [some (.num 0), some (.num 1)])
    ⟨by simp [Nest.normal], by simp [Nest.normal], by simp [Nest.normal], by simp⟩
    (by simp [Nest.normal, Nest.ownNames]) (by simp [Nest.normal])
    (some ((0 : ℝ) : EReal)) (some ((1 : ℝ) : EReal)) none (some ((4 : ℝ) : EReal)) (some ((2 : ℝ) : EReal)) none
    (fun _ => ⟨Or.inr (Or.inl rfl), Or.inr (Or.inr ⟨2, by norm_num⟩)⟩)
    (by
      classical
      show 0 < (diceLaw 5).real _
      rw [diceLaw_real]
      norm_num [Finset.sum_range_succ, between])
  have hd : (dice 5).discrete = true := rfl
  simpa [hd] using h

/-- `Truncated(Censored(die on {0, 1, 2}, None, 1), None, 1)`: the probabilities add up to 3/2 -/
example : HasSum (fun k : ℤ => (truncF ⊥ ((1 : ℝ) : EReal) (censF ⊥ ((1 : ℝ) : EReal) (ofBase (dice 2)))).pdf (k : ℝ))
    (3 / 2) := by
  classical
  have hc : (dice 2).cdf ((1 : ℝ) : EReal) = 2 / 3 := by
    rw [Base.cdf_coe]
    show (diceLaw 2).real _ = _
    rw [diceLaw_real]
    norm_num [Finset.sum_range_succ]
  have h := (nest_trunc_cens_sum (dice 2) rfl ((1 : ℝ) : EReal)
    (by show (0 : EReal) < _; exact_mod_cast one_pos)
    (by show _ ≤ (((2 : ℕ) : ℝ) : EReal); rw [EReal.coe_le_coe_iff]; norm_num)
    (Or.inr (Or.inr ⟨0, by show (0 : EReal) = _; simp⟩)) (Or.inr (Or.inr ⟨1, by norm_num⟩))
    (by rw [hc]; norm_num) (by rw [hc]; norm_num)).1
  rw [hc] at h
  norm_num at h ⊢
  exact h

/-- censoring a die on {0, …, 5} to [1, 4] and then to [2, 6] -/
example : censF ((2 : ℝ) : EReal) ((6 : ℝ) : EReal) (censF ((1 : ℝ) : EReal) ((4 : ℝ) : EReal) (ofBase (dice 5))) =
    censF ((2 : ℝ) : EReal) ((4 : ℝ) : EReal) (ofBase (dice 5)) := by
  have h1 : max ((1 : ℝ) : EReal) ((2 : ℝ) : EReal) = ((2 : ℝ) : EReal) := by
    rw [max_eq_right]; rw [EReal.coe_le_coe_iff]; norm_num
  have h2 : min ((4 : ℝ) : EReal) ((6 : ℝ) : EReal) = ((4 : ℝ) : EReal) := by
    rw [min_eq_left]; rw [EReal.coe_le_coe_iff]; norm_num
  have h := nest_censorings (ofBase (dice 5)) ((1 : ℝ) : EReal) ((4 : ℝ) : EReal) ((2 : ℝ) : EReal) ((6 : ℝ) : EReal) (by
    rw [h1, h2]
    show if true = true then max (0 : EReal) _ ≤ min (((5 : ℕ) : ℝ) : EReal) _ - 1 else _
    rw [if_pos rfl, max_eq_right (by exact_mod_cast (by norm_num : (0 : ℝ) ≤ 2)),
      min_eq_right (by rw [EReal.coe_le_coe_iff]; norm_num), ← EReal.coe_one, ← EReal.coe_sub, EReal.coe_le_coe_iff]
    norm_num)
  rw [h, h1, h2]

end Verif.Props
