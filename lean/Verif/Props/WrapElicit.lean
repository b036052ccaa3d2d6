import Verif.Lemmas.WrapElicit
import Verif.Props.Wrapper
import Verif.Props.FixedParams

/-!
# C126: maxent, quartile and match_* for Truncated, Censored and Hurdle
-/

namespace Verif.Props
open Verif Verif.Param Verif.Wrapper Verif.Optim Verif.WrapElicit Verif.Spec Verif.Lemmas.WrapElicit

/-- what a modifier should keep of its own arguments: the bounds given (none is infinite), for Censored cut to the support of
the base; the proportion of Hurdle -/
noncomputable def keptOwn : Kind → EReal × EReal → (String → Option EReal) → List EReal
  | .truncated, _, own => [(own "lower").getD ⊥, (own "upper").getD ⊤]
  | .censored, s, own => [max s.1 ((own "lower").getD ⊥), min s.2 ((own "upper").getD ⊤)]
  | .hurdle, _, own => [(own "psi").getD 0]

/-- moments have been matched: the names stay and every parameter has a value -/
def FitsAll (fit : Obj → Except Err Obj) : Prop :=
  ∀ o o', fit o = .ok o' → o'.names = o.names ∧ ∃ ps : List ℝ, o'.params = some (ps.map some) ∧ ps.length = o.names.length

private theorem ownKeys_eq (k : Kind) : ownKeys k = ownNames k := by cases k <;> rfl

/-- the state after construction when something is free -/
private theorem constructed (k : Kind) (f : Family) (supp : Obj → EReal × EReal) (own : String → Option EReal) (base : Obj)
    (hn : base.names ∈ (Spec.ways f).map Spec.Way.allowed) (vals : List (Option ℝ)) (hl : vals.length = base.names.length)
    (hfree : none ∈ vals) (hfresh : ∀ n ∈ ownNames k, n ∉ base.names) (w : WObj)
    (h : WrapElicit.construct k f supp own (base.names.zip vals) base = .ok w) :
    w.base = base ∧ w.names = base.names ++ ownNames k ∧ w.frozen = false ∧
      base.names.map w.attr = (vals.map wide).map some ∧
      (k = .hurdle → w.attr "psi" = some (own "psi")) ∧
      ((k = .hurdle → (own "psi").isSome) →
        (ownNames k).map w.attr = (keptOwn k (supp base) own).map fun v => some (some v)) := by
  have hne := way_ne_nil f _ hn
  have hd := way_nodup f _ hn
  have hkw : kwargsOf base (base.names.zip vals) = base.names.zip vals := by
    unfold kwargsOf
    rw [if_neg]
    revert hne hl
    cases base.names with
    | nil => intro _ h; exact absurd rfl h
    | cons a names => cases vals with
      | nil => simp at hfree
      | cons p ps => simp
  have hsnd : (base.names.zip vals).map Prod.snd = vals := List.map_snd_zip (by rw [hl])
  unfold WrapElicit.construct param at h
  simp only [hkw, hsnd] at h
  rw [if_neg (by
    unfold allNotNone
    rw [List.all_eq_true]
    intro hc
    simpa using hc _ hfree)] at h
  simp only [Except.pure_eq, Except.ok.injEq] at h
  subst h
  have hz : (base.names.zip vals).map (fun p => (p.1, wide p.2)) = base.names.zip (vals.map wide) := by
    rw [List.zip_map_right]; rfl
  simp only [hz]
  have hbase := setAttrs_map base.names hd (vals.map wide) (by simpa using hl) (fun _ => none)
  refine ⟨trivial, by cases k <;> rfl, trivial, ?_, ?_, ?_⟩
  · rw [← hbase]
    apply List.map_congr_left
    intro n hnm
    have hnot : ∀ m ∈ ownNames k, n ≠ m := fun m hm he => hfresh m hm (he ▸ hnm)
    cases k with
    | truncated =>
      have h1 := hnot "lower" (by simp [ownNames])
      have h2 := hnot "upper" (by simp [ownNames])
      simp [cutBounds, ownArgs, setAttrs, h1, h2]
    | censored =>
      have h1 := hnot "lower" (by simp [ownNames])
      have h2 := hnot "upper" (by simp [ownNames])
      simp [cutBounds, ownArgs, setAttrs, h1, h2]
    | hurdle =>
      have h1 := hnot "psi" (by simp [ownNames])
      simp [cutBounds, ownArgs, setAttrs, h1]
  · rintro rfl
    simp [cutBounds, ownArgs, setAttrs]
  · intro hpsi
    cases k with
    | truncated => simp [ownNames, cutBounds, ownArgs, setAttrs, keptOwn]
    | censored => simp [ownNames, cutBounds, ownArgs, setAttrs, keptOwn]
    | hurdle =>
      obtain ⟨v, hv⟩ := Option.isSome_iff_exists.1 (hpsi rfl)
      simp [ownNames, cutBounds, ownArgs, setAttrs, keptOwn, hv]

/-- the parameters are split -/
private theorem splitted (w : WObj) (g : List (Option EReal)) (h : w.names.map w.attr = g.map some) :
    getFixed w = .ok (((w.names.zipIdx 0).filter fun ni => ((w.attr ni.1).getD none).isNone).map Prod.snd,
      w.names.filterMap fun n => (w.attr n).getD none) ∧
    w.names.map (fun n => (w.attr n).getD none) = g := by
  constructor
  · unfold getFixed
    rw [if_pos, split_eq]
    · simp
    · rw [List.all_eq_true]
      intro n hn
      have : w.attr n ∈ g.map some := h ▸ List.mem_map_of_mem hn
      obtain ⟨v, -, hv⟩ := List.mem_map.1 this
      rw [← hv]; rfl
  · have := congrArg (List.map fun v : Option (Option EReal) => v.getD none) h
    simpa [List.map_map, Function.comp_def] using this

/-- one point, with the own arguments known -/
private theorem point (k : Kind) (f : Family) (supp : Obj → EReal × EReal) (names : List String)
    (hn : names ∈ (Spec.ways f).map Spec.Way.allowed) (hfresh : ∀ n ∈ ownNames k, n ∉ names)
    (a : String → Option EReal) (vals : List (Option ℝ)) (hl : vals.length = names.length) (kept : List EReal)
    (hk : kept.length = (ownNames k).length)
    (ha : (names ++ ownNames k).map a = vals.map wide ++ kept.map some) (x : List ℝ) (w w' : WObj)
    (hb : w.base.names = names) (hw : w.names = names ++ ownNames k)
    (h : applyPoint k f supp ((((names ++ ownNames k).zipIdx 0).filter fun ni => (a ni.1).isNone).map Prod.snd,
      (names ++ ownNames k).filterMap a) x w = .ok w') :
    w'.base.names = names ∧ w'.names = names ++ ownNames k ∧ w'.frozen = true ∧
      ∃ ps, Spec.fill vals x = some ps ∧
        w'.params = ps.map (fun r : ℝ => some (r : EReal)) ++ kept.map some ∧
        parametrize f (kwCall (names.zip ps)) w.base = .ok w'.base := by
  unfold applyPoint getParams at h
  obtain ⟨kvs, h1, h2⟩ := Support.bind_ok h
  rw [hw, getParamsFrom_fill a _ _ 0 _ (fun ni hni => split_contains a _ ni hni), ha, fill_wide] at h1
  cases hf : Spec.fill vals x with
  | none => rw [hf] at h1; simp at h1
  | some ps =>
    rw [hf] at h1
    simp only [Option.map_some, Except.ok.injEq] at h1
    subst h1
    have hps : ps.length = names.length := by rw [fill_length _ _ _ hf, hl]
    rw [List.zip_append (by simp [hps]), List.map_append] at h2
    unfold callParam at h2
    have hfilter : ∀ (l : List (String × EReal)), (∀ p ∈ l, p.1 ∈ names) →
        (l.map fun p => (p.1, some p.2)).filter (fun p => decide (p.1 ∉ ownKeys k)) = l.map fun p => (p.1, some p.2) := by
      intro l hl
      rw [List.filter_eq_self]
      intro p hp
      obtain ⟨q, hq, rfl⟩ := List.mem_map.1 hp
      simp only [decide_eq_true_eq, ownKeys_eq]
      exact fun hc => hfresh _ hc (hl q hq)
    have hfilter2 : ((((ownNames k).zip kept).map fun p => (p.1, some p.2))).filter
        (fun p => decide (p.1 ∉ ownKeys k)) = [] := by
      rw [List.filter_eq_nil_iff]
      intro p hp
      obtain ⟨q, hq, rfl⟩ := List.mem_map.1 hp
      simp only [decide_eq_true_eq, not_not, ownKeys_eq]
      exact (List.of_mem_zip hq).1
    have hkw : (((names.zip (ps.map fun r : ℝ => (r : EReal))).map fun p => (p.1, some p.2)).map
        fun p : String × Option EReal => (p.1, p.2.map EReal.toReal)) = names.zip (ps.map some) := by
      rw [List.zip_map_right, List.zip_map_right, List.map_map, List.map_map]
      apply List.map_congr_left
      rintro ⟨p, q⟩ _
      simp [Prod.map]
    rw [List.filter_append, hfilter _ (fun p hp => (List.of_mem_zip hp).1), hfilter2, List.append_nil, hkw] at h2
    obtain ⟨g1, g2, g3, g4, g5⟩ := param_full k f supp _ names hn ps hps w w' hb h2
    refine ⟨g2, by rw [g1, ownKeys_eq], g3, ps, rfl, ?_, g5⟩
    rw [g4]
    congr 1
    cases k with
    | truncated =>
      obtain ⟨l, u, rfl⟩ := List.length_eq_two.1 hk
      simp [ownArgs, ownNames, ownKeys, List.lookup]
    | censored =>
      obtain ⟨l, u, rfl⟩ := List.length_eq_two.1 hk
      simp [ownArgs, ownNames, ownKeys, List.lookup]
    | hurdle =>
      obtain ⟨l, rfl⟩ := List.length_eq_one_iff.1 hk
      simp [ownArgs, ownNames, ownKeys, List.lookup]

private theorem tries (k : Kind) (f : Family) (supp : Obj → EReal × EReal) (names : List String)
    (hn : names ∈ (Spec.ways f).map Spec.Way.allowed) (hfresh : ∀ n ∈ ownNames k, n ∉ names)
    (a : String → Option EReal) (vals : List (Option ℝ)) (hl : vals.length = names.length) (kept : List EReal)
    (hk : kept.length = (ownNames k).length)
    (ha : (names ++ ownNames k).map a = vals.map wide ++ kept.map some) (tried : List (List ℝ)) (w : WObj)
    (hb : w.base.names = names) (hw : w.names = names ++ ownNames k) :
    (tried.foldl (tryPoint k f supp ((((names ++ ownNames k).zipIdx 0).filter fun ni => (a ni.1).isNone).map Prod.snd,
      (names ++ ownNames k).filterMap a)) w).base.names = names ∧
    (tried.foldl (tryPoint k f supp ((((names ++ ownNames k).zipIdx 0).filter fun ni => (a ni.1).isNone).map Prod.snd,
      (names ++ ownNames k).filterMap a)) w).names = names ++ ownNames k := by
  induction tried generalizing w with
  | nil => exact ⟨hb, hw⟩
  | cons x tried ih =>
    rw [List.foldl_cons]
    unfold tryPoint
    cases h : applyPoint k f supp ((((names ++ ownNames k).zipIdx 0).filter fun ni => (a ni.1).isNone).map Prod.snd,
      (names ++ ownNames k).filterMap a) x w with
    | error e => exact ih w hb hw
    | ok w1 =>
      obtain ⟨h1, h2, -⟩ := point k f supp names hn hfresh a vals hl kept hk ha x w w1 hb hw h
      exact ih w1 h1 h2

private theorem fitted (k : Kind) (f : Family) (supp : Obj → EReal × EReal) (fit : Obj → Except Err Obj) (hfit : FitsAll fit)
    (w w1 : WObj) (hn : w.base.names ∈ (Spec.ways f).map Spec.Way.allowed) (h : fitMoments k f supp fit w = .ok w1) :
    w1.base.names = w.base.names ∧ w1.names = w.base.names ++ ownNames k ∧
      ∃ ps : List ℝ, ps.length = w.base.names.length ∧
        w1.params = ps.map (fun r : ℝ => some (r : EReal)) ++ (ownArgs k fun _ => none).map Prod.snd := by
  unfold fitMoments at h
  obtain ⟨b, hb, h⟩ := Support.bind_ok h
  obtain ⟨e1, ps, e2, e3⟩ := hfit _ _ hb
  rw [e2, e1] at h
  obtain ⟨g1, g2, -, g4, -⟩ := param_full k f supp _ w.base.names hn ps e3 { w with base := b } w1 e1 h
  exact ⟨g2, by rw [g1, ownKeys_eq], ps, e3, g4⟩

/-- C126: let a Truncated, Censored or Hurdle distribution be built with the values `vals` for the parameters of its base, in
their order, some of them `None`.  If an elicitation function accepts it and returns, then, whatever points were tried: the
parameters given still have their values, the others have the values found, in order; the bounds (or the proportion) are
those of the modifier; and the base distribution has been set to exactly these values. -/
theorem modified_elicit (k : Kind) (f : Family) (supp : Obj → EReal × EReal) (fit : Obj → Except Err Obj)
    (hfit : FitsAll fit) (own : String → Option EReal) (hpsi : k = .hurdle → (own "psi").isSome) (base : Obj)
    (hn : base.names ∈ (Spec.ways f).map Spec.Way.allowed) (hfresh : ∀ n ∈ ownNames k, n ∉ base.names)
    (vals : List (Option ℝ)) (hl : vals.length = base.names.length) (hfree : none ∈ vals)
    (tried : List (List ℝ)) (x : List ℝ) (w w' : WObj)
    (hc : WrapElicit.construct k f supp own (base.names.zip vals) base = .ok w)
    (h : elicit k f supp fit tried x w = .ok w') :
    w'.names = base.names ++ ownNames k ∧ w'.frozen = true ∧ w'.base.names = base.names ∧
      ∃ ps, Spec.fill vals x = some ps ∧
        w'.params = ps.map (fun r : ℝ => some (r : EReal)) ++ (keptOwn k (supp base) own).map some ∧
        ∃ o, parametrize f (kwCall (base.names.zip ps)) o = .ok w'.base := by
  obtain ⟨c1, c2, c3, c4, -, c6⟩ := constructed k f supp own base hn vals hl hfree hfresh w hc
  have c6 := c6 hpsi
  have hkept : (keptOwn k (supp base) own).length = (ownNames k).length := by cases k <;> rfl
  have hattr : w.names.map w.attr = (vals.map wide ++ (keptOwn k (supp base) own).map some).map some := by
    rw [c2, List.map_append, c4, c6, List.map_append]
    simp
  obtain ⟨s1, s2⟩ := splitted w _ hattr
  unfold elicit at h
  rw [s1] at h
  simp only [Except.ok_bind'] at h
  obtain ⟨w1, h1, h⟩ := Support.bind_ok h
  split_ifs at h with hnone
  obtain ⟨f1, f2, -⟩ := fitted k f supp fit hfit w w1 (by rw [c1]; exact hn) h1
  rw [c1] at f1 f2
  rw [c2] at h s2
  obtain ⟨t1, t2⟩ := tries k f supp base.names hn hfresh (fun n => (w.attr n).getD none) vals hl _ hkept s2 tried w1 f1 f2
  obtain ⟨p1, p2, p3, ps, p4, p5, p6⟩ := point k f supp base.names hn hfresh (fun n => (w.attr n).getD none) vals hl _ hkept
    s2 x _ w' t1 t2 h
  exact ⟨p2, p3, p1, ps, p4, p5, _, p6⟩

private theorem given_stays (n : String) (v : ℝ) (names : List String) (hd : names.Nodup) (vals : List (Option ℝ))
    (x ps : List ℝ) (i : ℕ) (hi : names[i]? = some n) (hv : vals[i]? = some (some v)) (h4 : Spec.fill vals x = some ps) :
    ((names.zip (ps.map fun r : ℝ => some (r : EReal))).lookup n).getD none = some (v : EReal) := by
  induction names generalizing i vals ps x with
  | nil => simp at hi
  | cons m names ih =>
    rw [List.nodup_cons] at hd
    cases vals with
    | nil => simp at hv
    | cons u vals =>
      have key : ∃ p qs y, ps = p :: qs ∧ Spec.fill vals y = some qs ∧ (∀ z, u = some z → p = z) := by
        cases u with
        | some z =>
          simp only [Spec.fill, Option.map_eq_some_iff] at h4
          obtain ⟨q, hq, rfl⟩ := h4
          exact ⟨z, q, x, rfl, hq, by rintro _ ⟨⟩; rfl⟩
        | none =>
          cases x with
          | nil => simp [Spec.fill] at h4
          | cons y x =>
            simp only [Spec.fill, Option.map_eq_some_iff] at h4
            obtain ⟨q, hq, rfl⟩ := h4
            exact ⟨y, q, x, rfl, hq, by rintro _ ⟨⟩⟩
      obtain ⟨p, qs, y, rfl, hq, hp⟩ := key
      cases i with
      | zero =>
        simp only [List.getElem?_cons_zero, Option.some.injEq] at hi hv
        subst hi
        rw [hp v hv]
        simp
      | succ i =>
        simp only [List.getElem?_cons_succ] at hi hv
        have hm : n ∈ names := List.mem_of_getElem? hi
        have hne : (n == m) = false := by
          rw [beq_eq_false_iff_ne]; rintro rfl; exact hd.1 hm
        simp only [List.map_cons, List.zip_cons_cons, List.lookup_cons, hne]
        exact ih hd.2 vals y qs i hi hv hq

/-- C126, in terms of `params_dict`: bounds and proportion are kept. -/
theorem modified_keeps_own (k : Kind) (f : Family) (supp : Obj → EReal × EReal) (fit : Obj → Except Err Obj)
    (hfit : FitsAll fit) (own : String → Option EReal) (hpsi : k = .hurdle → (own "psi").isSome) (base : Obj)
    (hn : base.names ∈ (Spec.ways f).map Spec.Way.allowed) (hfresh : ∀ n ∈ ownNames k, n ∉ base.names)
    (vals : List (Option ℝ)) (hl : vals.length = base.names.length) (hfree : none ∈ vals)
    (tried : List (List ℝ)) (x : List ℝ) (w w' : WObj)
    (hc : WrapElicit.construct k f supp own (base.names.zip vals) base = .ok w)
    (h : elicit k f supp fit tried x w = .ok w') :
    (k = .truncated → w'.paramsDict "lower" = some ((own "lower").getD ⊥) ∧
      w'.paramsDict "upper" = some ((own "upper").getD ⊤)) ∧
    (k = .censored → w'.paramsDict "lower" = some (max (supp base).1 ((own "lower").getD ⊥)) ∧
      w'.paramsDict "upper" = some (min (supp base).2 ((own "upper").getD ⊤))) ∧
    (k = .hurdle → w'.paramsDict "psi" = own "psi") ∧
    ∀ (i : ℕ) (n : String) (v : ℝ), base.names[i]? = some n → vals[i]? = some (some v) → w'.paramsDict n = some (v : EReal) := by
  obtain ⟨h1, -, -, ps, h4, h5, -⟩ := modified_elicit k f supp fit hfit own hpsi base hn hfresh vals hl hfree tried x w w' hc h
  have hps : (ps.map fun r : ℝ => some (r : EReal)).length = base.names.length := by
    rw [List.length_map, fill_length _ _ _ h4, hl]
  have hown : ∀ n ∈ ownNames k, w'.paramsDict n
      = (((ownNames k).zip ((keptOwn k (supp base) own).map some)).lookup n).getD none := by
    intro n hnm
    unfold WObj.paramsDict
    rw [h1, h5, lookup_zip_append _ _ _ _ _ hps.symm, if_neg (hfresh n hnm)]
  refine ⟨?_, ?_, ?_, ?_⟩
  · rintro rfl
    rw [hown "lower" (by simp [ownNames]), hown "upper" (by simp [ownNames])]
    simp [ownNames, keptOwn, List.lookup]
  · rintro rfl
    rw [hown "lower" (by simp [ownNames]), hown "upper" (by simp [ownNames])]
    simp [ownNames, keptOwn, List.lookup]
  · rintro rfl
    rw [hown "psi" (by simp [ownNames])]
    obtain ⟨v, hv⟩ := Option.isSome_iff_exists.1 (hpsi rfl)
    simp [ownNames, keptOwn, List.lookup, hv]
  · intro i n v hi hv
    have hnm : n ∈ base.names := List.mem_of_getElem? hi
    unfold WObj.paramsDict
    rw [h1, h5, lookup_zip_append _ _ _ _ _ hps.symm, if_pos hnm]
    exact given_stays n v _ (way_nodup f _ hn) vals x ps i hi hv h4

/-- C126: the base reports exactly these numbers when they are admissible (precisions aside, C04). -/
theorem modified_base_reported (f : Family) (names : List String) (hn : names ∈ exactNames f) (ps : List ℝ) (o b : Obj)
    (hl : ps.length = names.length) (hd : InDom f (kwCall (names.zip ps)))
    (hw : ∀ kv ∈ names.zip ps, WholeParam f kv.1 → ∃ n : ℤ, kv.2 = n)
    (h : parametrize f (kwCall (names.zip ps)) o = .ok b) : b.names = names ∧ b.params = some (ps.map some) := by
  obtain ⟨o', h1, h2, h3⟩ := complete_reported f names hn ps o hl hd hw
  rw [h] at h1
  cases h1
  exact ⟨h2, h3⟩

/-- C126, what fails: a base that is not complete has no `params`; the modifier is then built as if nothing had been given.
Values given to the base are not seen: every parameter of the base is free. -/
theorem base_values_unseen (k : Kind) (f : Family) (supp : Obj → EReal × EReal) (own : String → Option EReal) (base : Obj)
    (hp : base.params = none) :
    WrapElicit.construct k f supp own [] base
      = WrapElicit.construct k f supp own (base.names.zip (List.replicate base.names.length none)) base := by
  have : kwargsOf base (base.names.zip (List.replicate base.names.length none)) = kwargsOf base [] := by
    have hz : base.names.zip (List.replicate base.names.length (none : Option ℝ)) = base.names.map fun n => (n, none) := by
      generalize base.names = l
      induction l with
      | nil => rfl
      | cons a l ih => simp [List.replicate_succ, ih]
    unfold kwargsOf
    rw [hz, hp]
    by_cases hb : base.names = []
    · simp [hb]
    · simp [hb]
  unfold WrapElicit.construct param
  rw [this]

/-- C126: the other families have `params` with `None` in it: the values given to the base are seen. -/
theorem base_values_seen (k : Kind) (f : Family) (supp : Obj → EReal × EReal) (own : String → Option EReal) (base : Obj)
    (vals : List (Option ℝ)) (hp : base.params = some vals) :
    WrapElicit.construct k f supp own [] base = WrapElicit.construct k f supp own (base.names.zip vals) base := by
  have : kwargsOf base (base.names.zip vals) = kwargsOf base [] := by
    unfold kwargsOf
    rw [hp]
    by_cases hb : (base.names.zip vals).isEmpty
    · simp [hb]
    · simp [hb]
  unfold WrapElicit.construct param
  rw [this]

/-- C126: so after an elicitation of `Truncated(base, lower, upper)`, with any values given to an incomplete base, the
parameters are the ones found, all of them. -/
theorem base_values_replaced (k : Kind) (f : Family) (supp : Obj → EReal × EReal) (fit : Obj → Except Err Obj)
    (hfit : FitsAll fit) (own : String → Option EReal) (hpsi : k = .hurdle → (own "psi").isSome) (base : Obj)
    (hp : base.params = none) (hn : base.names ∈ (Spec.ways f).map Spec.Way.allowed)
    (hfresh : ∀ n ∈ ownNames k, n ∉ base.names) (tried : List (List ℝ)) (x : List ℝ)
    (hx : x.length = base.names.length) (w w' : WObj)
    (hc : WrapElicit.construct k f supp own [] base = .ok w) (h : elicit k f supp fit tried x w = .ok w') :
    w'.params = x.map (fun r : ℝ => some (r : EReal)) ++ (keptOwn k (supp base) own).map some ∧
      ∃ o, parametrize f (kwCall (base.names.zip x)) o = .ok w'.base := by
  rw [base_values_unseen k f supp own base hp] at hc
  have hne := way_ne_nil f _ hn
  obtain ⟨-, -, -, ps, h4, h5, h6⟩ := modified_elicit k f supp fit hfit own hpsi base hn hfresh _ (by simp)
    (by rw [List.mem_replicate]; exact ⟨by simpa using hne, rfl⟩) tried x w w' hc h
  have : Spec.fill (List.replicate base.names.length none) x = some x := by
    rw [← hx]
    clear hx h h4
    induction x with
    | nil => rfl
    | cons v x ih => simp [List.replicate_succ, Spec.fill, ih]
  rw [this, Option.some.injEq] at h4
  subst h4
  exact ⟨h5, h6⟩

/-- C126: a Hurdle without a proportion cannot be elicited: after the moments have been matched there is no starting value
for it and a TypeError follows. -/
theorem hurdle_psi_not_free (f : Family) (supp : Obj → EReal × EReal) (fit : Obj → Except Err Obj)
    (hfit : FitsAll fit) (own : String → Option EReal) (hpsi : own "psi" = none) (base : Obj)
    (hn : base.names ∈ (Spec.ways f).map Spec.Way.allowed) (hfresh : "psi" ∉ base.names)
    (vals : List (Option ℝ)) (hl : vals.length = base.names.length) (hfree : none ∈ vals)
    (tried : List (List ℝ)) (x : List ℝ) (w w1 : WObj)
    (hc : WrapElicit.construct .hurdle f supp own (base.names.zip vals) base = .ok w)
    (hm : fitMoments .hurdle f supp fit w = .ok w1) :
    elicit .hurdle f supp fit tried x w = .error .typeError := by
  have hfresh' : ∀ n ∈ ownNames .hurdle, n ∉ base.names := by
    intro n h; simp only [ownNames, List.mem_singleton] at h; subst h; exact hfresh
  obtain ⟨c1, c2, c3, c4, c5, -⟩ := constructed .hurdle f supp own base hn vals hl hfree hfresh' w hc
  have c5 := c5 rfl
  have hattr : w.names.map w.attr = (vals.map wide ++ [none]).map some := by
    rw [c2, List.map_append, c4]
    simp [ownNames, c5, hpsi]
  obtain ⟨s1, -⟩ := splitted w _ hattr
  obtain ⟨-, -, ps, f3, f4⟩ := fitted .hurdle f supp fit hfit w w1 (by rw [c1]; exact hn) hm
  unfold elicit
  rw [s1]
  simp only [Except.ok_bind', hm]
  rw [if_pos]
  rw [List.any_eq_true]
  refine ⟨base.names.length, ?_, ?_⟩
  · rw [List.mem_map]
    refine ⟨("psi", base.names.length), ?_, rfl⟩
    rw [List.mem_filter]
    refine ⟨?_, by simp [c5, hpsi]⟩
    rw [List.mem_zipIdx_iff_getElem?, c2]
    simp [ownNames]
  · rw [c1] at f3
    rw [f4, ← f3]
    simp [ownArgs]

/-- C126: names of another parametrisation.  If some parameter in use by the base is not among the keyword arguments and
something is free, the elicitation ends with an AttributeError. -/
theorem other_names_refused (k : Kind) (f : Family) (supp : Obj → EReal × EReal) (fit : Obj → Except Err Obj)
    (own : String → Option EReal) (base : Obj) (kw : List (String × Option ℝ)) (hfree : ∃ p ∈ kw, p.2 = none)
    (n : String) (hb : n ∈ base.names) (hk : n ∉ kw.map Prod.fst) (ho : n ∉ ownNames k)
    (tried : List (List ℝ)) (x : List ℝ) (w : WObj) (hc : WrapElicit.construct k f supp own kw base = .ok w) :
    elicit k f supp fit tried x w = .error .attributeError := by
  obtain ⟨p, hp, hpn⟩ := hfree
  have hkw : kwargsOf base kw = kw := by
    unfold kwargsOf
    rw [if_neg]
    cases kw with
    | nil => simp at hp
    | cons => simp
  unfold WrapElicit.construct param at hc
  simp only [hkw] at hc
  rw [if_neg (by
    unfold allNotNone
    rw [List.all_eq_true]
    intro h
    have := h p.2 (List.mem_map_of_mem hp)
    rw [hpn] at this
    simp at this)] at hc
  simp only [Except.pure_eq, Except.ok.injEq] at hc
  subst hc
  have hm : cutBounds k (supp base) own (setAttrs (setAttrs (fun _ => none) (kw.map fun p => (p.1, wide p.2)))
      (ownArgs k own)) n = none := by
    have h1 : setAttrs (fun _ => none) (kw.map fun p => (p.1, wide p.2)) n = none := by
      rw [setAttrs_of_not_mem]
      simpa [List.map_map, Function.comp_def] using hk
    have h2 : setAttrs (setAttrs (fun _ => none) (kw.map fun p => (p.1, wide p.2))) (ownArgs k own) n = none := by
      rw [setAttrs_of_not_mem, h1]
      have : (ownArgs k own).map Prod.fst = ownNames k := by cases k <;> rfl
      rwa [this]
    cases k with
    | truncated => exact h2
    | hurdle => exact h2
    | censored =>
      unfold cutBounds
      simp only
      rw [setAttrs_of_not_mem, h2]
      simpa [ownNames] using ho
  unfold elicit getFixed
  rw [if_neg]
  · rfl
  · rw [List.all_eq_true]
    intro h
    have := h n (by simp [hb])
    dsimp only at this
    rw [hm] at this
    simp at this

/-- C126: `fixed_params` with numbers for parameters of the base is always refused, even when others are free: the modifier
counts as complete. -/
theorem modified_fixed_params_refused (k : Kind) (f : Family) (supp : Obj → EReal × EReal) (fit : Obj → Except Err Obj)
    (check : WObj → Except Err Unit) (kvs : List (String × Option EReal)) (hall : ∀ p ∈ kvs, p.2.isSome)
    (hb : ∃ p ∈ kvs, p.1 ∉ ownNames k) (tried : List (List ℝ)) (x : List ℝ) (w : WObj) :
    ∃ e, request k f supp fit check (some kvs) tried x w = .error e := by
  unfold request
  simp only
  cases h : callParam k f supp kvs w with
  | error e => exact ⟨e, rfl⟩
  | ok w1 =>
    have hf : w1.frozen = true := by
      unfold callParam param at h
      set l := ((kvs.filter fun p => p.1 ∉ ownKeys k).map fun p => (p.1, p.2.map EReal.toReal)) with hlist
      have hne : l ≠ [] := by
        obtain ⟨p, hp, hq⟩ := hb
        rw [← List.length_pos_iff, hlist, List.length_map]
        apply List.length_pos_of_mem (a := p)
        rw [List.mem_filter]
        exact ⟨hp, by simpa [ownKeys_eq] using hq⟩
      have hkw : kwargsOf w.base l = l := by
        unfold kwargsOf
        rw [if_neg]
        simpa using hne
      simp only [hkw] at h
      rw [if_pos (by
        unfold allNotNone
        rw [List.all_eq_true]
        intro v hv
        obtain ⟨p, hp, rfl⟩ := List.mem_map.1 hv
        rw [hlist] at hp
        obtain ⟨q, hq, rfl⟩ := List.mem_map.1 hp
        have := hall q (List.mem_filter.1 hq).1
        simpa using this)] at h
      split_ifs at h
      obtain ⟨b, -, h⟩ := Support.bind_ok h
      simp only [Except.pure_eq, Except.ok.injEq] at h
      subst h
      rfl
    refine ⟨.valueError, ?_⟩
    simp [hf]

/-- C126: `fixed_params` that do not repeat the bounds remove them: after `fixed_params={"mu": 0, "sigma": None}` a Truncated
or Censored distribution has no bounds, a Hurdle no proportion. -/
theorem modified_fixed_params_unbound (k : Kind) (f : Family) (supp : Obj → EReal × EReal)
    (kvs : List (String × Option EReal)) (hno : ∀ p ∈ kvs, p.1 ∉ ownNames k) (w w1 : WObj)
    (h : callParam k f supp kvs w = .ok w1) :
    w1.names = w.base.names ++ ownNames k ∧
      ∃ l, w1.params = l ++ if k = .hurdle then [none] else [some ⊥, some ⊤] := by
  have hown : (fun n => if n ∈ ownKeys k then (kvs.reverse.lookup n).getD none else none) = fun _ => (none : Option EReal) := by
    funext n
    by_cases hn : n ∈ ownKeys k
    · rw [if_pos hn]
      have : kvs.reverse.lookup n = none := by
        rw [List.lookup_eq_none_iff]
        intro p hp
        rw [List.mem_reverse] at hp
        rw [ownKeys_eq] at hn
        have := hno p hp
        simp only [beq_eq_false_iff_ne, ne_eq, bne_iff_ne]
        rintro rfl
        exact this hn
      rw [this]; rfl
    · rw [if_neg hn]
  unfold callParam at h
  rw [hown] at h
  unfold param at h
  dsimp only at h
  split_ifs at h
  · obtain ⟨b, -, h⟩ := Support.bind_ok h
    simp only [Except.pure_eq, Except.ok.injEq] at h
    subst h
    refine ⟨by cases k <;> rfl, _, congrArg (List.append _) ?_⟩
    cases k <;> rfl
  · simp only [Except.pure_eq, Except.ok.injEq] at h
    subst h
    refine ⟨by cases k <;> rfl, _, congrArg (List.append _) ?_⟩
    cases k <;> rfl

/-- C126: once elicited, a modified distribution is refused. -/
theorem modified_refused_again (k : Kind) (f : Family) (supp : Obj → EReal × EReal) (fit : Obj → Except Err Obj)
    (check : WObj → Except Err Unit) (tried : List (List ℝ)) (x : List ℝ) (w : WObj) (hf : w.frozen = true) :
    request k f supp fit check none tried x w = .error .valueError := by
  unfold request
  simp [hf]

/-- C126: a base with parameters `lower` and `upper` (Uniform, DiscreteUniform), not complete: the names of the modifier's
bounds hide those of the base, so that nothing is free, although the distribution is not complete. -/
theorem uniform_nothing_free (f : Family) (supp : Obj → EReal × EReal) (own : String → Option EReal) (base : Obj)
    (hn : base.names = ["lower", "upper"]) (a b : Option ℝ) (hp : base.params = some [a, b]) (hfree : a = none ∨ b = none) :
    ∃ w, WrapElicit.construct .truncated f supp own [] base = .ok w ∧ w.frozen = false ∧
      getFixed w = .ok ([], [(own "lower").getD ⊥, (own "upper").getD ⊤, (own "lower").getD ⊥, (own "upper").getD ⊤]) := by
  refine ⟨_, by
    unfold WrapElicit.construct param
    simp only [kwargsOf, hp, hn]
    rw [if_neg (by rcases hfree with h | h <;> subst h <;> simp [allNotNone])]
    rfl, rfl, ?_⟩
  simp [getFixed, ownArgs, cutBounds, setAttrs, hn, splitStep, List.zipIdx]

/-- C126: a mixture is never elicited: its components' parameters are not attributes of the mixture. -/
theorem mixture_refused (names : List (List String)) (l : List String) (hl : l ∈ names) (n : String) (hn : n ∈ l)
    (hw : n ≠ "weights") : mixGetFixed names = .error .attributeError := by
  unfold mixGetFixed
  rw [if_neg]
  rw [List.all_eq_true]
  intro h
  have := h n (by simp only [List.mem_append, List.mem_flatten]; exact Or.inl ⟨l, hl, hn⟩)
  exact hw (by simpa using this)

/-! ### Examples -/

/-- a moment matching for the examples -/
private noncomputable def ones (o : Obj) : Except Err Obj := .ok { o with params := some (o.names.map fun _ => some 1) }

private theorem ones_fits : FitsAll ones := by
  rintro o o' h
  simp only [ones, Except.ok.injEq] at h
  subst h
  exact ⟨rfl, o.names.map fun _ => 1, by simp, by simp⟩

private noncomputable def noBounds : Obj → EReal × EReal := fun _ => (⊥, ⊤)

/-- `Gumbel(mu=1)` -/
private noncomputable def gumbel1 : Obj := simpleParam (simpleFam .gumbel) (kwOf [("mu", 1)]) blank

private noncomputable def zeroTen (n : String) : Option EReal :=
  if n = "lower" then some 0 else if n = "upper" then some 10 else none

/-- `Truncated(Gumbel(mu=1), 0, 10)` -/
private noncomputable def gumbelW : WObj :=
  ⟨gumbel1, setAttrs (fun _ => none) [("mu", some ((1 : ℝ) : EReal)), ("beta", none), ("lower", some 0), ("upper", some 10)],
    ["mu", "beta", "lower", "upper"], [some ((1 : ℝ) : EReal), none, some 0, some 10], false⟩

private theorem gumbelW_constructed :
    WrapElicit.construct .truncated (.simple .gumbel) noBounds zeroTen [] gumbel1 = .ok gumbelW := by
  simp [WrapElicit.construct, param, kwargsOf, gumbel1, simpleParam, simpleFam, kwOf, List.lookup, allNotNone, ownArgs, wide,
    zeroTen, gumbelW, cutBounds, setAttrs, Except.pure_eq]

/-- `Truncated(Gumbel(mu=1), 0, 10)`: the hypotheses of `modified_elicit` hold and the elicitation returns. -/
example : construct (.simple .gumbel) (kwOf [("mu", 1)]) = .ok gumbel1 ∧
    gumbel1.names ∈ (Spec.ways (.simple .gumbel)).map Spec.Way.allowed ∧ (∀ n ∈ ownNames .truncated, n ∉ gumbel1.names) ∧
    gumbel1.params = some [some 1, none] ∧
    WrapElicit.construct .truncated (.simple .gumbel) noBounds zeroTen (gumbel1.names.zip [some 1, none]) gumbel1 = .ok gumbelW ∧
    ∃ w', elicit .truncated (.simple .gumbel) noBounds ones [[3], []] [2] gumbelW = .ok w' ∧
      w'.params = [some ((1 : ℝ) : EReal), some ((2 : ℝ) : EReal), some 0, some 10] := by
  have hp : gumbel1.params = some [some 1, none] := by
    simp [gumbel1, simpleParam, simpleFam, kwOf, List.lookup, allNotNone]
  refine ⟨rfl, ?_, ?_, hp, ?_, ?_⟩
  · simp [gumbel1, simpleParam, simpleFam, Spec.ways, kwOf, List.lookup, allNotNone]
    rfl
  · simp [gumbel1, simpleParam, simpleFam, ownNames, kwOf, List.lookup, allNotNone]
  · rw [← base_values_seen _ _ _ _ _ _ hp]; exact gumbelW_constructed
  · exact ⟨_, rfl, rfl⟩

/-- `Gamma(alpha=2)` -/
private noncomputable def gamma2 : Obj := ⟨(blank.setAll [("alpha", some 2), ("beta", none)]).attr, ["alpha", "beta"], none, false⟩

/-- What fails: in `Truncated(Gamma(alpha=2), 0, 10)` the value of `alpha` is lost.  When the optimiser returns (3, 1), the
result has `alpha` 3. -/
example : construct .gamma (kwOf [("alpha", 2)]) = .ok gamma2 ∧ ∃ w w',
    WrapElicit.construct .truncated .gamma noBounds zeroTen [] gamma2 = .ok w ∧
    elicit .truncated .gamma noBounds ones [] [3, 1] w = .ok w' ∧ w'.paramsDict "alpha" = some ((3 : ℝ) : EReal) := by
  refine ⟨?_, _, _, rfl, rfl, rfl⟩
  simp [Param.construct, parametrize, gammaLikeParam, kwOf, List.lookup, anyNotNone, gamma2, blank]
  rfl

/-- `Hurdle(Gumbel(mu=1))` without a proportion: the hypotheses of `hurdle_psi_not_free` hold. -/
example : ∃ w w1, WrapElicit.construct .hurdle (.simple .gumbel) noBounds (fun _ => none)
      (gumbel1.names.zip [some 1, none]) gumbel1 = .ok w ∧
    fitMoments .hurdle (.simple .gumbel) noBounds ones w = .ok w1 := by
  exact ⟨_, _, rfl, rfl⟩

/-- `Truncated(Gamma(), mu=2, sigma=None)`: the hypotheses of `other_names_refused` hold. -/
example : ∃ w, WrapElicit.construct .truncated .gamma noBounds zeroTen [("mu", some 2), ("sigma", none)] gamma2 = .ok w ∧
    elicit .truncated .gamma noBounds ones [] [3, 1] w = .error .attributeError := by
  refine ⟨_, rfl, ?_⟩
  exact other_names_refused .truncated .gamma noBounds ones zeroTen gamma2 [("mu", some 2), ("sigma", none)]
    ⟨("sigma", none), by simp, rfl⟩ "alpha" (by simp [gamma2]) (by simp) (by simp [ownNames]) [] [3, 1] _ rfl

/-- `fixed_params={"mu": 0}` for `Truncated(Gumbel(), 0, 10)` -/
example : request .truncated (.simple .gumbel) noBounds ones (fun _ => .ok ()) (some [("mu", some 0)]) [] [2] gumbelW
    = .error .valueError := by rfl

/-- `fixed_params={"mu": 0, "beta": None}`: accepted, and the bounds 0 and 10 are gone. -/
example : ∃ w', request .truncated (.simple .gumbel) noBounds ones (fun _ => .ok ())
      (some [("mu", some ((0 : ℝ) : EReal)), ("beta", none)]) [] [2] gumbelW = .ok w' ∧
    w'.params = [some ((0 : ℝ) : EReal), some ((2 : ℝ) : EReal), some ⊥, some ⊤] := by
  exact ⟨_, rfl, rfl⟩

/-- `Truncated(Uniform(), 0, 10)`: nothing is free. -/
example : (simpleParam (simpleFam .uniform) (kwOf []) blank).names = ["lower", "upper"] ∧
    (simpleParam (simpleFam .uniform) (kwOf []) blank).params = some [none, none] := ⟨rfl, rfl⟩

/-- `Censored(HalfNormal(), lower=-1)`: the bound -1 is reported as 0. -/
example : ∃ base w w', construct .halfNormal (kwOf []) = .ok base ∧
    WrapElicit.construct .censored .halfNormal (fun _ => (0, ⊤))
      (fun n => if n = "lower" then some (-1) else none) [("sigma", none)] base = .ok w ∧
    elicit .censored .halfNormal (fun _ => (0, ⊤)) ones [] [2] w = .ok w' ∧ w'.paramsDict "lower" = some 0 := by
  refine ⟨⟨(blank.setAll [("sigma", none), ("tau", none)]).attr, ["sigma"], none, false⟩, _, _, ?_, rfl, rfl, ?_⟩
  · simp [Param.construct, parametrize, halfNormalParam, kwOf, List.lookup, allNotNone, anyNotNone, blank]
  have := (modified_keeps_own .censored .halfNormal (fun _ => (0, ⊤)) ones ones_fits
    (fun n => if n = "lower" then some (-1) else none) (by simp)
    ⟨(blank.setAll [("sigma", none), ("tau", none)]).attr, ["sigma"], none, false⟩ (by simp [Spec.ways]; exact Or.inl rfl) (by decide)
    [none] rfl (by simp) [] [2] _ _ rfl rfl).2.1 rfl
  refine this.1.trans ?_
  simp

example : mixGetFixed [["mu", "sigma"], ["mu", "sigma"]] = .error .attributeError :=
  mixture_refused _ ["mu", "sigma"] (by simp) "mu" (by simp) (by decide)

end Verif.Props
