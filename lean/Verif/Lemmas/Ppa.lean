import Verif.Model.Ppa
import Mathlib.Tactic

/-! # Lemmas about the prior predictive assistant -/

set_option linter.unusedSimpArgs false
set_option linter.unusedVariables false

namespace Verif.Ppa
open Verif

variable (env : Env)

theorem mem_order {s : Option ℕ} {x : ℕ} : x ∈ env.order s ↔ x < env.draws := by
  rw [(env.order_perm s).mem_iff, List.mem_range]

theorem length_order (s : Option ℕ) : (env.order s).length = env.draws := by
  rw [(env.order_perm s).length_eq, List.length_range]

theorem getD_eq {l : List ℕ} {k d : ℕ} (h : k < l.length) : l.getD k d = l[k] := by
  simp [List.getD, h]

theorem nearest_spec (draws : ℕ) (seen : List ℕ) (shown : Finset ℕ) (rest : List ℕ)
    (new : Option ℕ) : nearest draws seen shown rest new = draws ∨
      (nearest draws seen shown rest new ∉ seen ∧ nearest draws seen shown rest new ∉ shown ∧
        (new = some (nearest draws seen shown rest new) ∨ nearest draws seen shown rest new ∈ rest)) := by
  induction rest generalizing new with
  | nil =>
    cases new with
    | none => left; simp [nearest]
    | some x =>
      by_cases h : x ∈ seen ∨ x ∈ shown
      · left; simp [nearest, h]
      · right
        have : nearest draws seen shown [] (some x) = x := by simp [nearest, h]
        rw [this]; push Not at h; exact ⟨h.1, h.2, .inl rfl⟩
  | cons y ys ih =>
    have key : nearest draws seen shown ys (some y) = draws ∨
        (nearest draws seen shown ys (some y) ∉ seen ∧ nearest draws seen shown ys (some y) ∉ shown ∧
          nearest draws seen shown ys (some y) ∈ y :: ys) := by
      rcases ih (some y) with h | ⟨h1, h2, h3⟩
      · exact .inl h
      · refine .inr ⟨h1, h2, ?_⟩
        rcases h3 with h3 | h3
        · have := Option.some.inj h3; rw [← this]; exact List.mem_cons_self
        · exact List.mem_cons_of_mem _ h3
    cases new with
    | none =>
      have : nearest draws seen shown (y :: ys) none = nearest draws seen shown ys (some y) := by
        simp [nearest]
      rw [this]
      rcases key with h | ⟨h1, h2, h3⟩
      · exact .inl h
      · exact .inr ⟨h1, h2, .inr h3⟩
    | some x =>
      by_cases h : x ∈ seen ∨ x ∈ shown
      · have : nearest draws seen shown (y :: ys) (some x) = nearest draws seen shown ys (some y) := by
          simp [nearest, h]
        rw [this]
        rcases key with h | ⟨h1, h2, h3⟩
        · exact .inl h
        · exact .inr ⟨h1, h2, .inr h3⟩
      · right
        have : nearest draws seen shown (y :: ys) (some x) = x := by simp [nearest, h]
        rw [this]; push Not at h; exact ⟨h.1, h.2, .inl rfl⟩

/-- `l` extends `seen` by new, distinct, valid indexes that are not in `shown` -/
def Extends (seen : List ℕ) (shown : Finset ℕ) (l : List ℕ) : Prop :=
  ∃ ext, l = seen ++ ext ∧ ext.Nodup ∧ ∀ x ∈ ext, x < env.draws ∧ x ∉ seen ∧ x ∉ shown

theorem Extends.refl (seen : List ℕ) (shown : Finset ℕ) : Extends env seen shown seen :=
  ⟨[], by simp⟩

theorem Extends.step {seen : List ℕ} {shown : Finset ℕ} {l : List ℕ} {x : ℕ}
    (hx : x < env.draws) (hs : x ∉ seen) (hn : x ∉ shown) (h : Extends env (seen ++ [x]) shown l) :
    Extends env seen shown l := by
  obtain ⟨ext, rfl, hnd, hall⟩ := h
  refine ⟨x :: ext, by simp, List.nodup_cons.2 ⟨fun hm => ?_, hnd⟩, ?_⟩
  · exact (hall x hm).2.1 (by simp)
  · intro y hy
    rcases List.mem_cons.1 hy with rfl | hy
    · exact ⟨hx, hs, hn⟩
    · obtain ⟨a, b, c⟩ := hall y hy
      exact ⟨a, fun h => b (by simp [h]), c⟩

theorem targetRounds_extends (n : ℕ) (new : Option ℕ) (hnew : ∀ x, new = some x → x ≤ env.draws)
    (seen : List ℕ) : Extends env seen ∅ (targetRounds env n new seen) := by
  induction n generalizing new seen with
  | zero => exact Extends.refl env _ _
  | succ n ih =>
    simp only [targetRounds]
    have hs := nearest_spec env.draws seen ∅ (env.order none).tail new
    set r := nearest env.draws seen ∅ (env.order none).tail new
    have hle : r ≤ env.draws := by
      rcases hs with h | ⟨_, _, h | h⟩
      · exact h.le
      · exact hnew _ h
      · exact ((mem_order env).1 (List.mem_of_mem_tail h)).le
    by_cases hr : r = env.draws
    · rw [if_neg (by simpa using hr)]
      exact ih _ (by rintro x h; rw [← Option.some.inj h]; exact hle) _
    · rw [if_pos hr]
      have h := hs.resolve_left hr
      exact Extends.step env (lt_of_le_of_ne hle hr) h.1 h.2.1
        (ih _ (by rintro x h; rw [← Option.some.inj h]; exact hle) _)

theorem keepRounds_extends (shown : Finset ℕ) (n : ℕ) (new : ℕ) (hnew : new ≤ env.draws)
    (seen : List ℕ) : Extends env seen shown (keepRounds env shown n new seen) := by
  induction n generalizing new seen with
  | zero => exact Extends.refl env _ _
  | succ n ih =>
    simp only [keepRounds]
    have hs := nearest_spec env.draws seen shown (env.order seen.getLast?).tail (some new)
    set r := nearest env.draws seen shown (env.order seen.getLast?).tail (some new)
    have hle : r ≤ env.draws := by
      rcases hs with h | ⟨_, _, h | h⟩
      · exact h.le
      · rw [← Option.some.inj h]; exact hnew
      · exact ((mem_order env).1 (List.mem_of_mem_tail h)).le
    by_cases hr : r = env.draws
    · rw [if_neg (by simpa using hr)]
      exact ih _ hle _
    · rw [if_pos hr]
      have h := hs.resolve_left hr
      exact Extends.step env (lt_of_le_of_ne hle hr) h.1 h.2.1 (ih _ hle _)

theorem farthest_ok (order seen : List ℕ) (shown : Finset ℕ) (k new r : ℕ) (hk : k ≤ order.length)
    (h : farthest order seen shown k new = .ok r) :
    r ∉ seen ∧ r ∉ shown ∧ (r = new ∨ r ∈ order) := by
  induction k generalizing new with
  | zero =>
    by_cases hn : new ∈ seen ∨ new ∈ shown
    · simp [farthest, hn] at h
    · simp [farthest, hn] at h; subst h; push Not at hn; exact ⟨hn.1, hn.2, .inl rfl⟩
  | succ k ih =>
    by_cases hn : new ∈ seen ∨ new ∈ shown
    · simp only [farthest, hn, if_true] at h
      obtain ⟨a, b, c⟩ := ih _ (by omega) h
      refine ⟨a, b, .inr ?_⟩
      rcases c with c | c
      · rw [c, getD_eq (by omega)]; exact List.getElem_mem _
      · exact c
    · simp [farthest, hn] at h; subst h; push Not at hn; exact ⟨hn.1, hn.2, .inl rfl⟩

theorem farthest_exists (order seen : List ℕ) (shown : Finset ℕ) (k new : ℕ) (hk : k ≤ order.length)
    (h : ∃ x ∈ order.take k, x ∉ seen ∧ x ∉ shown) : ∃ r, farthest order seen shown k new = .ok r := by
  induction k generalizing new with
  | zero => simp at h
  | succ k ih =>
    by_cases hn : new ∈ seen ∨ new ∈ shown
    · simp only [farthest, hn, if_true]
      by_cases hx : order.getD k order.length ∈ seen ∨ order.getD k order.length ∈ shown
      · refine ih _ (by omega) ?_
        obtain ⟨x, hx1, hx2, hx3⟩ := h
        rw [List.take_add_one, List.mem_append] at hx1
        rcases hx1 with h1 | h1
        · exact ⟨x, h1, hx2, hx3⟩
        · exfalso
          rw [getD_eq (by omega)] at hx
          rw [List.getElem?_eq_getElem (by omega)] at h1
          simp at h1
          subst h1
          rcases hx with hx | hx
          · exact hx2 hx
          · exact hx3 hx
      · cases k with
        | zero => exact ⟨_, by rw [farthest, if_neg hx]⟩
        | succ k => exact ⟨_, by rw [farthest, if_neg hx]⟩
    · exact ⟨new, by simp [farthest, hn]⟩

theorem farthest_error (order seen : List ℕ) (shown : Finset ℕ) (k new : ℕ) (hk : k ≤ order.length)
    (hn : new ∈ seen ∨ new ∈ shown) (h : ∀ x ∈ order, x ∈ seen ∨ x ∈ shown) :
    farthest order seen shown k new = .error .valueError := by
  induction k generalizing new with
  | zero => simp [farthest, hn]
  | succ k ih =>
    simp only [farthest, hn, if_true]
    refine ih _ (by omega) (h _ ?_)
    rw [getD_eq (by omega)]; exact List.getElem_mem _

theorem farRounds_extends (shown : Finset ℕ) (n : ℕ) (new : ℕ) (hnew : new < env.draws)
    (seen l : List ℕ) (h : farRounds env shown n new seen = .ok l) :
    Extends env seen shown l ∧ l.length = seen.length + n := by
  induction n generalizing new seen with
  | zero => simp [farRounds] at h; subst h; exact ⟨Extends.refl env _ _, rfl⟩
  | succ n ih =>
    simp only [farRounds] at h
    cases hf : farthest (env.order seen.getLast?) seen shown env.draws new with
    | error e => simp [hf] at h
    | ok r =>
      simp only [hf, Except.ok_bind'] at h
      obtain ⟨h1, h2, h3⟩ := farthest_ok _ _ _ _ _ _ (by rw [length_order]) hf
      have hr : r < env.draws := by
        rcases h3 with h3 | h3
        · rw [h3]; exact hnew
        · exact (mem_order env).1 h3
      rw [if_pos hr.ne] at h
      obtain ⟨ha, hb⟩ := ih r hr _ h
      refine ⟨Extends.step env hr h1 h2 ha, ?_⟩
      rw [hb]; simp; omega

/-- the indexes still available -/
def unseen (shown : Finset ℕ) : Finset ℕ := Finset.range env.draws \ shown

theorem farRounds_exists (shown : Finset ℕ) (n : ℕ) (new : ℕ) (hnew : new < env.draws) (seen : List ℕ)
    (h : n ≤ (unseen env shown \ seen.toFinset).card) : ∃ l, farRounds env shown n new seen = .ok l := by
  induction n generalizing new seen with
  | zero => exact ⟨seen, rfl⟩
  | succ n ih =>
    simp only [farRounds]
    obtain ⟨x, hx⟩ := Finset.card_pos.1 (lt_of_lt_of_le (Nat.succ_pos n) h)
    simp only [unseen, Finset.mem_sdiff, Finset.mem_range, List.mem_toFinset] at hx
    obtain ⟨r, hr⟩ := farthest_exists (env.order seen.getLast?) seen shown env.draws new
      (by rw [length_order]) ⟨x, by
        rw [List.take_of_length_le (by rw [length_order])]; exact (mem_order env).2 hx.1.1, hx.2, hx.1.2⟩
    obtain ⟨h1, h2, h3⟩ := farthest_ok _ _ _ _ _ _ (by rw [length_order]) hr
    have hrd : r < env.draws := by
      rcases h3 with h3 | h3
      · rw [h3]; exact hnew
      · exact (mem_order env).1 h3
    simp only [hr, Except.ok_bind', if_pos hrd.ne]
    refine ih r hrd _ ?_
    have : unseen env shown \ (seen ++ [r]).toFinset = (unseen env shown \ seen.toFinset).erase r := by
      ext y; simp; tauto
    rw [this]
    have := Finset.pred_card_le_card_erase (s := unseen env shown \ seen.toFinset) (a := r)
    omega

theorem farRounds_error (shown : Finset ℕ) (n : ℕ) (new : ℕ) (seen : List ℕ) (hnew : new ∈ seen)
    (h : (unseen env shown \ seen.toFinset).card < n) :
    farRounds env shown n new seen = .error .valueError := by
  induction n generalizing new seen with
  | zero => simp at h
  | succ n ih =>
    simp only [farRounds]
    by_cases he : ∃ x, x < env.draws ∧ x ∉ seen ∧ x ∉ shown
    · obtain ⟨x, hx, hx2, hx3⟩ := he
      obtain ⟨r, hr⟩ := farthest_exists (env.order seen.getLast?) seen shown env.draws new
        (by rw [length_order]) ⟨x, by
          rw [List.take_of_length_le (by rw [length_order])]; exact (mem_order env).2 hx, hx2, hx3⟩
      obtain ⟨h1, h2, h3⟩ := farthest_ok _ _ _ _ _ _ (by rw [length_order]) hr
      have hrd : r < env.draws := by
        rcases h3 with h3 | h3
        · rw [h3] at h1; exact absurd hnew h1
        · exact (mem_order env).1 h3
      simp only [hr, Except.ok_bind', if_pos hrd.ne]
      refine ih r _ (by simp) ?_
      have e : unseen env shown \ (seen ++ [r]).toFinset = (unseen env shown \ seen.toFinset).erase r := by
        ext y; simp; tauto
      have hm : r ∈ unseen env shown \ seen.toFinset := by simp [unseen, hrd, h1, h2]
      have hp := Finset.card_pos.2 ⟨r, hm⟩
      rw [e, Finset.card_erase_of_mem hm]
      omega
    · push Not at he
      rw [farthest_error _ _ _ _ _ (by rw [length_order]) (.inl hnew)]
      · rfl
      · intro x hx
        by_cases hs : x ∈ seen
        · exact .inl hs
        · exact .inr (he x ((mem_order env).1 hx) hs)

/-! ## The initial samples -/

/-- what is recorded as shown before looking for samples -/
theorem init_cases (first : List ℕ → ℕ) (hfirst : ∀ l, l ≠ [] → first l ∈ l) (st : State)
    (hst : st.shown ⊆ Finset.range env.draws) (target : Bool) :
    let shown := st.shown ∪ env.excluded
    (unseen env shown = ∅ ∧ initSubsamples env first st target = ({ st with shown := shown }, .ok [])) ∨
    (unseen env shown ≠ ∅ ∧ target = true ∧ ∃ l, Extends env [] ∅ l ∧
      initSubsamples env first st target =
        ({ st with shown := shown ∪ l.toFinset, distances := st.distances ∪ l.toFinset }, .ok l)) ∨
    (unseen env shown ≠ ∅ ∧ target = false ∧ 9 ≤ (unseen env shown).card ∧
      ∃ l, Extends env [] shown l ∧ l.length = 9 ∧
      initSubsamples env first st target = ({ st with shown := shown ∪ l.toFinset }, .ok l)) ∨
    (unseen env shown ≠ ∅ ∧ target = false ∧ (unseen env shown).card < 9 ∧
      initSubsamples env first st target = ({ st with shown := shown }, .error .valueError)) := by
  classical
  intro shown
  have hsub : shown ⊆ Finset.range env.draws :=
    Finset.union_subset hst (Finset.filter_subset _ _)
  have hcard : shown.card = env.draws ↔ unseen env shown = ∅ := by
    rw [unseen, Finset.sdiff_eq_empty_iff_subset]
    constructor
    · intro h
      rw [Finset.eq_of_subset_of_card_le hsub (by simp [h])]
    · intro h
      rw [Finset.Subset.antisymm hsub h]; simp
  by_cases hc : unseen env shown = ∅
  · left
    refine ⟨hc, ?_⟩
    simp only [initSubsamples]
    rw [if_pos (hcard.2 hc)]
  · right
    have hc' : ¬ shown.card = env.draws := fun h => hc (hcard.1 h)
    cases target with
    | true =>
      left
      refine ⟨hc, rfl, _, targetRounds_extends env 9 none (by simp) [], ?_⟩
      simp only [initSubsamples]
      rw [if_neg hc', if_pos trivial]
    | false =>
      right
      set us := (List.range env.draws).filter (· ∉ shown) with hus
      have hmem : ∀ x, x ∈ us ↔ x < env.draws ∧ x ∉ shown := by intro x; simp [hus]
      obtain ⟨y, hy⟩ := Finset.nonempty_iff_ne_empty.2 hc
      simp only [unseen, Finset.mem_sdiff, Finset.mem_range] at hy
      have hne : us ≠ [] := List.ne_nil_of_mem ((hmem y).2 hy)
      have hf := (hmem _).1 (hfirst us hne)
      have hsplit : (unseen env shown \ [first us].toFinset).card = (unseen env shown).card - 1 := by
        have : unseen env shown \ [first us].toFinset = (unseen env shown).erase (first us) := by
          ext z; simp; tauto
        rw [this, Finset.card_erase_of_mem (by simp [unseen, hf])]
      have hrun : initSubsamples env first st false =
          match farRounds env shown 8 (first us) [first us] with
          | .error e => ({ st with shown := shown }, .error e)
          | .ok l => ({ st with shown := shown ∪ l.toFinset }, .ok l) := by
        simp only [initSubsamples]
        rw [if_neg hc', if_neg (by simp)]
        rw [if_neg]
        · rfl
        · intro h
          refine hne ?_
          rw [hus, ← h]
      by_cases h9 : 9 ≤ (unseen env shown).card
      · left
        obtain ⟨l, hl⟩ := farRounds_exists env shown 8 (first us) hf.1 [first us] (by omega)
        obtain ⟨h1, h2⟩ := farRounds_extends env shown 8 (first us) hf.1 _ l hl
        refine ⟨hc, rfl, h9, l, ?_, by simpa using h2, by rw [hrun, hl]⟩
        exact Extends.step env hf.1 (by simp) hf.2 (by simpa using h1)
      · right
        refine ⟨hc, rfl, by omega, ?_⟩
        rw [hrun, farRounds_error env shown 8 (first us) [first us] (by simp) (by
          have := Finset.card_pos.2 (Finset.nonempty_iff_ne_empty.2 hc)
          omega)]

/-! ## Invariant of a session -/

/-- everything the state refers to is a valid index -/
structure Inv (st : State) : Prop where
  shown : st.shown ⊆ Finset.range env.draws
  selected : st.selected ⊆ Finset.range env.draws
  choices : ∀ x ∈ st.choices, x < env.draws
  axes : ∀ x, some x ∈ st.axes → x < env.draws

/-- one step of a session: nothing is forgotten, and what is displayed is new -/
structure Grows (a b : State) : Prop where
  shown : a.shown ⊆ b.shown
  selected : a.selected ⊆ b.selected

theorem Grows.trans {a b c : State} (h : Grows a b) (h' : Grows b c) : Grows a c :=
  ⟨h.1.trans h'.1, h.2.trans h'.2⟩

theorem mapM_titleOf (axes : List (Option ℕ)) (ps titles : List ℕ)
    (h : ps.mapM (titleOf axes) = .ok titles) : ∀ x ∈ titles, some x ∈ axes := by
  induction ps generalizing titles with
  | nil => simp at h; subst h; simp
  | cons p ps ih =>
    rw [List.mapM_cons] at h
    cases hp : titleOf axes p with
    | error e => simp [hp] at h
    | ok t =>
      cases hps : ps.mapM (titleOf axes) with
      | error e => simp [hp, hps] at h
      | ok ts =>
        simp [hp, hps] at h
        subst h
        intro x hx
        rcases List.mem_cons.1 hx with rfl | hx
        · unfold titleOf at hp
          split at hp
          · rename_i i hi
            injection hp with hp; subst hp
            exact List.mem_of_getElem? hi
          · simp at hp
        · exact ih ts hps x hx

theorem mapM_titleOf_ok (axes : List (Option ℕ)) (ps : List ℕ)
    (h : ∀ p ∈ ps, ∃ i, axes[p]? = some (some i)) : ∃ titles, ps.mapM (titleOf axes) = .ok titles := by
  induction ps with
  | nil => exact ⟨[], rfl⟩
  | cons p ps ih =>
    obtain ⟨ts, hts⟩ := ih fun q hq => h q (List.mem_cons_of_mem _ hq)
    obtain ⟨i, hi⟩ := h p List.mem_cons_self
    refine ⟨i :: ts, ?_⟩
    rw [List.mapM_cons, hts]
    simp [titleOf, hi]

/-- the automatically selected indexes -/
theorem collectMore_eq (near : ℕ → ℕ → Bool) (st : State) :
    ∃ new : Finset ℕ, (∀ x ∈ new, x < env.draws ∧ (env.bounded → env.strictlyInside x)) ∧
      (st.selected = ∅ → new = ∅) ∧
      collectMore env near st = { st with selected := st.selected ∪ new, shown := st.shown ∪ new } := by
  classical
  unfold collectMore
  refine ⟨_, ?_, ?_, rfl⟩
  · intro x hx
    have hmem : ∀ x, x ∈ (st.selected.biUnion fun i =>
        (((List.range (if 2 < (st.distances ∩ st.selected).card then env.draws else 3)).drop 2).filterMap
          fun k => if near i k then (env.order (some i))[k - 1]? else none).toFinset) →
        x < env.draws := by
      intro x hx
      simp only [Finset.mem_biUnion, List.mem_toFinset, List.mem_filterMap] at hx
      obtain ⟨i, _, k, _, hk⟩ := hx
      split_ifs at hk
      exact (mem_order env).1 (List.mem_of_getElem? hk)
    by_cases hb : env.bounded
    · rw [if_pos hb] at hx
      rw [Finset.mem_filter] at hx
      exact ⟨hmem x hx.1, fun _ => hx.2⟩
    · rw [if_neg hb] at hx
      exact ⟨hmem x hx, fun h => absurd h hb⟩
  · intro h
    simp [h]

theorem takeClicked_spec (r : Round) (st st' : State) (h : takeClicked env r st = .ok st') :
    (r.clicked = [] ∧ st' = st) ∨
    (∃ titles, (∀ x ∈ titles, some x ∈ st.axes) ∧ ∃ new : Finset ℕ,
      (∀ x ∈ new, x < env.draws ∧ (env.bounded → env.strictlyInside x)) ∧
      (st.selected ∪ (st.choices ++ titles).toFinset = ∅ → new = ∅) ∧
      (∀ x, x ∈ st'.choices ↔ x ∈ st.choices ∨ x ∈ titles) ∧
      st'.selected = st.selected ∪ (st.choices ++ titles).toFinset ∪ new ∧
      st'.shown = st.shown ∪ new ∧ st'.axes = st.axes.map fun _ => none) := by
  unfold takeClicked at h
  by_cases hc : r.clicked = []
  · left; rw [if_pos hc] at h; injection h with h; exact ⟨hc, h.symm⟩
  · right
    rw [if_neg hc] at h
    cases ht : r.clicked.mapM (titleOf st.axes) with
    | error e => rw [ht] at h; simp at h
    | ok titles =>
      rw [ht] at h
      simp only [Except.ok_bind', Except.pure_eq] at h
      injection h with h
      have hsh : (r.shuffle (st.choices ++ titles)).toFinset = (st.choices ++ titles).toFinset := by
        ext x; simp [(r.shuffle_perm _).mem_iff]
      obtain ⟨new, h1, h2, h3⟩ := collectMore_eq env r.near
        { st with choices := r.shuffle (st.choices ++ titles),
                  selected := st.selected ∪ (r.shuffle (st.choices ++ titles)).toFinset }
      rw [h3] at h
      subst h
      refine ⟨titles, mapM_titleOf _ _ _ ht, new, h1, ?_, ?_, ?_, rfl, rfl⟩
      · intro he; exact h2 (by simpa [hsh] using he)
      · intro x; simp [(r.shuffle_perm _).mem_iff]
      · simp [hsh]

theorem takeClicked_inv (r : Round) (st st' : State) (hi : Inv env st)
    (h : takeClicked env r st = .ok st') : Inv env st' ∧ Grows st st' := by
  rcases takeClicked_spec env r st st' h with ⟨_, rfl⟩ | ⟨titles, h1, new, h2, _, h3, h4, h5, h6⟩
  · exact ⟨hi, ⟨subset_rfl, subset_rfl⟩⟩
  · refine ⟨⟨?_, ?_, ?_, ?_⟩, ?_, ?_⟩
    · rw [h5]
      exact Finset.union_subset hi.shown fun x hx => Finset.mem_range.2 (h2 x hx).1
    · rw [h4]
      refine Finset.union_subset (Finset.union_subset hi.selected ?_)
        fun x hx => Finset.mem_range.2 (h2 x hx).1
      intro x hx
      simp only [List.mem_toFinset, List.mem_append] at hx
      rcases hx with hx | hx
      · exact Finset.mem_range.2 (hi.choices x hx)
      · exact Finset.mem_range.2 (hi.axes x (h1 x hx))
    · intro x hx
      rcases (h3 x).1 hx with hx | hx
      · exact hi.choices x hx
      · exact hi.axes x (h1 x hx)
    · intro x hx; rw [h6] at hx; simp at hx
    · rw [h5]; exact Finset.subset_union_left
    · rw [h4, Finset.union_assoc]; exact Finset.subset_union_left

theorem keepSampling_spec (st : State) (hi : Inv env st) :
    Inv env (keepSampling env st).1 ∧ Grows st (keepSampling env st).1 ∧
    (keepSampling env st).1.axes = st.axes ∧ (keepSampling env st).1.selected = st.selected ∧
    (∀ x ∈ (keepSampling env st).1.choices, x ∈ st.choices) ∧
    (keepSampling env st).1.shown = st.shown ∪ (keepSampling env st).2.toFinset ∧
    Extends env [] st.shown (keepSampling env st).2 := by
  cases hc : st.choices with
  | nil =>
    simp only [keepSampling, hc]
    exact ⟨hi, ⟨subset_rfl, subset_rfl⟩, trivial, trivial, by simp [hc], by simp, Extends.refl env _ _⟩
  | cons c cs =>
    simp only [keepSampling, hc]
    obtain ⟨ext, h1, h2, h3⟩ := keepRounds_extends env st.shown 9 c
      (hi.choices c (by simp [hc])).le [c]
    have ht : (keepRounds env st.shown 9 c [c]).tail = ext := by rw [h1]; simp
    rw [ht]
    refine ⟨⟨?_, hi.selected, ?_, hi.axes⟩, ⟨Finset.subset_union_left, subset_rfl⟩, trivial, trivial, ?_, trivial, ?_⟩
    · exact Finset.union_subset hi.shown fun x hx =>
        Finset.mem_range.2 (h3 x (List.mem_toFinset.1 hx)).1
    · intro x hx; exact hi.choices x (by simp at hx ⊢; simp [hc, hx])
    · intro x hx; exact List.mem_cons_of_mem _ hx
    · exact ⟨ext, rfl, h2, fun x hx => ⟨(h3 x hx).1, by simp, (h3 x hx).2.2⟩⟩

theorem mem_plotTitles {axes : List (Option ℕ)} {l : List ℕ} {x : ℕ}
    (h : some x ∈ plotTitles axes l) : x ∈ l ∨ some x ∈ axes := by
  rw [plotTitles, List.mem_append] at h
  rcases h with h | h
  · left; simpa using List.mem_of_mem_take h
  · right; exact List.mem_of_mem_drop h

/-- displayed indexes: new, distinct, valid, and recorded -/
structure Fresh (a b : State) (l : List ℕ) : Prop where
  nodup : l.Nodup
  lt : ∀ x ∈ l, x < env.draws
  new : ∀ x ∈ l, x ∉ a.shown
  recorded : ∀ x ∈ l, x ∈ b.shown

theorem initFalse_spec (first : List ℕ → ℕ) (hfirst : ∀ l, l ≠ [] → first l ∈ l) (st : State)
    (hi : Inv env st) :
    Inv env (initSubsamples env first st false).1 ∧ Grows st (initSubsamples env first st false).1 ∧
    (initSubsamples env first st false).1.axes = st.axes ∧
    (initSubsamples env first st false).1.selected = st.selected ∧
    (initSubsamples env first st false).1.choices = st.choices ∧
    env.excluded ⊆ (initSubsamples env first st false).1.shown ∧
    ∀ l, (initSubsamples env first st false).2 = .ok l →
      Fresh env st (initSubsamples env first st false).1 l ∧ ∀ x ∈ l, ¬ env.outside x := by
  classical
  have hsub : st.shown ∪ env.excluded ⊆ Finset.range env.draws :=
    Finset.union_subset hi.shown (Finset.filter_subset _ _)
  rcases init_cases env first hfirst st hi.shown false with ⟨_, h⟩ | ⟨_, h, _⟩ | ⟨_, _, _, l, hl, _, h⟩ |
    ⟨_, _, _, h⟩
  · rw [h]
    refine ⟨⟨hsub, hi.selected, hi.choices, hi.axes⟩, ⟨Finset.subset_union_left, subset_rfl⟩, rfl, rfl,
      rfl, Finset.subset_union_right, ?_⟩
    rintro l hl
    injection hl with hl; subst hl
    exact ⟨⟨by simp, by simp, by simp, by simp⟩, by simp⟩
  · simp at h
  · rw [h]
    obtain ⟨ext, h1, h2, h3⟩ := hl
    simp only [List.nil_append] at h1
    subst h1
    refine ⟨⟨?_, hi.selected, hi.choices, hi.axes⟩,
      ⟨Finset.subset_union_left.trans Finset.subset_union_left, subset_rfl⟩, rfl, rfl,
      rfl, Finset.subset_union_right.trans Finset.subset_union_left, ?_⟩
    · exact Finset.union_subset hsub fun x hx => Finset.mem_range.2 (h3 x (List.mem_toFinset.1 hx)).1
    · rintro l' hl'
      injection hl' with hl'; subst hl'
      refine ⟨⟨h2, fun x hx => (h3 x hx).1, fun x hx hs => (h3 x hx).2.2 (by simp [hs]),
        fun x hx => by simp [hx]⟩, fun x hx ho => (h3 x hx).2.2 ?_⟩
      simp [Env.excluded, (h3 x hx).1, ho]
  · rw [h]
    refine ⟨⟨hsub, hi.selected, hi.choices, hi.axes⟩, ⟨Finset.subset_union_left, subset_rfl⟩, rfl, rfl,
      rfl, Finset.subset_union_right, ?_⟩
    rintro l hl
    simp at hl

theorem carryOn_step (r : Round) (st : State) (hi : Inv env st) :
    Inv env (carryOn env r st).1 ∧ Grows st (carryOn env r st).1 ∧
    ∀ l, (carryOn env r st).2 = .ok l → Fresh env st (carryOn env r st).1 l ∧
      (env.excluded ⊆ st.shown → ∀ x ∈ l, ¬ env.outside x) := by
  classical
  unfold carryOn
  cases ht : takeClicked env r st with
  | error e => simp only; exact ⟨hi, ⟨subset_rfl, subset_rfl⟩, by simp⟩
  | ok mid =>
    simp only
    obtain ⟨him, hgm⟩ := takeClicked_inv env r st mid hi ht
    obtain ⟨hik, hgk, hax, hsel, hch, hsh, hex⟩ := keepSampling_spec env mid him
    obtain ⟨ext, hx1, hx2, hx3⟩ := hex
    simp only [List.nil_append] at hx1
    by_cases hk : (keepSampling env mid).2 = []
    · rw [if_neg (by simpa using hk)]
      obtain ⟨a1, a2, a3, a4, a5, a6, a7⟩ := initFalse_spec env r.first r.first_mem
        (keepSampling env mid).1 hik
      have hg : Grows st (initSubsamples env r.first (keepSampling env mid).1 false).1 :=
        (hgm.trans hgk).trans a2
      cases hres : (initSubsamples env r.first (keepSampling env mid).1 false).2 with
      | error e =>
        simp only
        exact ⟨⟨a1.shown, a1.selected, a1.choices, a1.axes⟩, ⟨hg.1, hg.2⟩, by simp⟩
      | ok l =>
        simp only
        obtain ⟨hf, ho⟩ := a7 l hres
        refine ⟨⟨a1.shown, a1.selected, a1.choices, ?_⟩, ⟨hg.1, hg.2⟩, ?_⟩
        · intro x hx
          dsimp only at hx
          split_ifs at hx
          · simp at hx
          · rcases mem_plotTitles hx with h | h
            · exact hf.lt x h
            · exact him.axes x h
        · rintro l' hl'
          injection hl' with hl'; subst hl'
          exact ⟨⟨hf.nodup, hf.lt, fun x hx h => hf.new x hx ((hgm.trans hgk).1 h), hf.recorded⟩,
            fun _ => ho⟩
    · rw [if_pos hk]
      refine ⟨⟨hik.shown, hik.selected, hik.choices, ?_⟩, ⟨(hgm.trans hgk).1, (hgm.trans hgk).2⟩, ?_⟩
      · intro x hx
        rcases mem_plotTitles hx with h | h
        · rw [hx1] at h; exact (hx3 x h).1
        · exact him.axes x h
      · rintro l' hl'
        injection hl' with hl'
        rw [hx1] at hl'; subst hl'
        refine ⟨⟨hx2, fun x hx => (hx3 x hx).1, fun x hx h => (hx3 x hx).2.2 (hgm.1 h), ?_⟩, ?_⟩
        · intro x hx
          dsimp only
          rw [hsh, hx1]; simp [hx]
        · intro he x hx ho
          exact (hx3 x hx).2.2 (hgm.1 (he (by simp [Env.excluded, (hx3 x hx).1, ho])))

/-- the displayed indexes of a session, in order -/
noncomputable def displayed (st : State) (rs : List Round) : List ℕ :=
  ((session env st rs).1.filterMap id).flatten

theorem session_inv (st : State) (hi : Inv env st) (rs : List Round) :
    Inv env (session env st rs).2 ∧ Grows st (session env st rs).2 ∧
    Fresh env st (session env st rs).2 (displayed env st rs) ∧
    (env.excluded ⊆ st.shown → ∀ x ∈ displayed env st rs, ¬ env.outside x) := by
  induction rs generalizing st with
  | nil =>
    simp only [session, displayed]
    exact ⟨hi, ⟨subset_rfl, subset_rfl⟩, ⟨by simp, by simp, by simp, by simp⟩, by simp⟩
  | cons r rs ih =>
    obtain ⟨h1, h2, h3⟩ := carryOn_step env r st hi
    obtain ⟨i1, i2, i3, i4⟩ := ih _ h1
    have hs : (session env st (r :: rs)).2 = (session env (carryOn env r st).1 rs).2 := rfl
    refine ⟨hs ▸ i1, hs ▸ h2.trans i2, ?_⟩
    cases hr : (carryOn env r st).2 with
    | error e =>
      have hd : displayed env st (r :: rs) = displayed env (carryOn env r st).1 rs := by
        simp [displayed, session, hr]
      rw [hd, hs]
      exact ⟨⟨i3.nodup, i3.lt, fun x hx h => i3.new x hx (h2.1 h), i3.recorded⟩,
        fun he => i4 (he.trans h2.1)⟩
    | ok l =>
      have hd : displayed env st (r :: rs) = l ++ displayed env (carryOn env r st).1 rs := by
        simp [displayed, session, hr]
      obtain ⟨hf, ho⟩ := h3 l hr
      rw [hd, hs]
      refine ⟨⟨?_, ?_, ?_, ?_⟩, ?_⟩
      · refine List.nodup_append'.2 ⟨hf.nodup, i3.nodup, ?_⟩
        intro x hx hx'
        exact i3.new x hx' (hf.recorded x hx)
      · intro x hx
        rcases List.mem_append.1 hx with hx | hx
        · exact hf.lt x hx
        · exact i3.lt x hx
      · intro x hx
        rcases List.mem_append.1 hx with hx | hx
        · exact hf.new x hx
        · exact fun h => i3.new x hx (h2.1 h)
      · intro x hx
        rcases List.mem_append.1 hx with hx | hx
        · exact i2.1 (hf.recorded x hx)
        · exact i3.recorded x hx
      · intro he x hx
        rcases List.mem_append.1 hx with hx | hx
        · exact ho he x hx
        · exact i4 (he.trans h2.1) x hx

theorem start_spec (first : List ℕ → ℕ) (hfirst : ∀ l, l ≠ [] → first l ∈ l) (target : Bool)
    (l : List ℕ) (h : (start env first target).2 = .ok l) :
    Inv env (start env first target).1 ∧ env.excluded ⊆ (start env first target).1.shown ∧
    l ≠ [] ∧ l.Nodup ∧ (∀ x ∈ l, x < env.draws ∧ x ∈ (start env first target).1.shown) ∧
    (start env first target).1.selected = ∅ ∧ (start env first target).1.choices = [] ∧
    (∀ x, some x ∈ (start env first target).1.axes → x ∈ l) ∧
    (target = false → ∀ x ∈ l, ¬ env.outside x) := by
  classical
  have hempty : Inv env ⟨∅, ∅, [], ∅, [], []⟩ := ⟨by simp, by simp, by simp, by simp⟩
  have hsub : (∅ : Finset ℕ) ∪ env.excluded ⊆ Finset.range env.draws :=
    Finset.union_subset (by simp) (Finset.filter_subset _ _)
  have fin : ∀ l' shown dist, (∀ x ∈ l', x < env.draws) → l'.Nodup →
      shown ⊆ Finset.range env.draws → env.excluded ⊆ shown → (∀ x ∈ l', x ∈ shown) →
      (target = false → ∀ x ∈ l', ¬ env.outside x) →
      initSubsamples env first ⟨∅, ∅, [], ∅, [], []⟩ target = (⟨shown, ∅, [], dist, [], []⟩, .ok l') →
      Inv env (start env first target).1 ∧ env.excluded ⊆ (start env first target).1.shown ∧
      l ≠ [] ∧ l.Nodup ∧ (∀ x ∈ l, x < env.draws ∧ x ∈ (start env first target).1.shown) ∧
      (start env first target).1.selected = ∅ ∧ (start env first target).1.choices = [] ∧
      (∀ x, some x ∈ (start env first target).1.axes → x ∈ l) ∧
      (target = false → ∀ x ∈ l, ¬ env.outside x) := by
    intro l' shown dist h1 h2 h3 h4 h5 h6 hini
    unfold start at h ⊢
    rw [hini] at h ⊢
    dsimp only at h ⊢
    split_ifs at h with hl
    injection h with h; subst h
    have hax : ∀ x, some x ∈ plotTitles (List.replicate (⌈Real.sqrt l'.length⌉₊ * ⌈Real.sqrt l'.length⌉₊)
        none) l' → x ∈ l' := by
      intro x hx
      rcases mem_plotTitles hx with hx | hx
      · exact hx
      · simp at hx
    exact ⟨⟨h3, by simp, by simp, fun x hx => h1 x (hax x hx)⟩, h4, hl, h2, fun x hx => ⟨h1 x hx, h5 x hx⟩,
      rfl, rfl, hax, h6⟩
  rcases init_cases env first hfirst ⟨∅, ∅, [], ∅, [], []⟩ (by simp) target with ⟨_, hini⟩ |
    ⟨_, _, l', hl, hini⟩ | ⟨_, ht, _, l', hl, _, hini⟩ | ⟨_, _, _, hini⟩
  · exact fin [] _ _ (by simp) (by simp) hsub Finset.subset_union_right (by simp) (by simp) hini
  · obtain ⟨ext, h1, h2, h3⟩ := hl
    simp only [List.nil_append] at h1
    subst h1
    refine fin _ _ _ (fun x hx => (h3 x hx).1) h2 ?_
      (Finset.subset_union_right.trans Finset.subset_union_left) (fun x hx => by simp [hx]) ?_ hini
    · exact Finset.union_subset hsub fun x hx => Finset.mem_range.2 (h3 x (List.mem_toFinset.1 hx)).1
    · rename_i ht; simp [ht]
  · obtain ⟨ext, h1, h2, h3⟩ := hl
    simp only [List.nil_append] at h1
    subst h1
    refine fin _ _ _ (fun x hx => (h3 x hx).1) h2 ?_
      (Finset.subset_union_right.trans Finset.subset_union_left) (fun x hx => by simp [hx]) ?_ hini
    · exact Finset.union_subset hsub fun x hx => Finset.mem_range.2 (h3 x (List.mem_toFinset.1 hx)).1
    · intro _ x hx ho
      exact (h3 x hx).2.2 (by simp [Env.excluded, (h3 x hx).1, ho])
  · unfold start at h
    rw [hini] at h
    simp at h

/-! ## Boundaries -/

theorem outside_iff (i : ℕ) : ¬ env.outside i ↔
    ∀ j, env.lower ≤ (env.sample i j : EReal) ∧ (env.sample i j : EReal) ≤ env.upper := by
  unfold Env.outside Env.minOf Env.maxOf
  push Not
  constructor
  · rintro ⟨h1, h2⟩ j
    refine ⟨h1.trans ?_, le_trans ?_ h2⟩
    · exact_mod_cast Finset.inf'_le _ (Finset.mem_univ j)
    · exact_mod_cast Finset.le_sup' _ (Finset.mem_univ j)
  · intro h
    obtain ⟨j, _, hj⟩ := Finset.exists_mem_eq_inf' (Finset.univ_nonempty) (env.sample i)
    obtain ⟨k, _, hk⟩ := Finset.exists_mem_eq_sup' (Finset.univ_nonempty) (env.sample i)
    rw [hj, hk]
    exact ⟨(h j).1, (h k).2⟩

theorem not_outside_of_strict {i : ℕ} (h : env.strictlyInside i) : ¬ env.outside i := by
  rintro (h' | h')
  · exact lt_asymm h.1 h'
  · exact lt_asymm h.2 h'

/-- with infinite boundaries, once one sample is inside all are -/
theorem not_outside_of_unbounded (hb : ¬ env.bounded) {i : ℕ} (hi : ¬ env.outside i) (j : ℕ) :
    ¬ env.outside j := by
  unfold Env.bounded at hb
  unfold Env.outside at hi ⊢
  push Not at hb hi ⊢
  have hl : env.lower = ⊥ := by
    by_contra h
    have := hb.1 h
    rw [this] at hi
    exact absurd hi.1 (not_le.2 (EReal.coe_lt_top _))
  have hu : env.upper = ⊤ := by
    by_contra h
    have : env.upper = ⊥ := by
      by_contra h'
      exact h (hb.2 h')
    rw [this] at hi
    exact absurd hi.2 (not_le.2 (EReal.bot_lt_coe _))
  simp [hl, hu]

/-- nothing the session refers to lies outside the boundaries -/
structure Within (st : State) : Prop where
  excluded : env.excluded ⊆ st.shown
  selected : ∀ x ∈ st.selected, ¬ env.outside x
  choices : ∀ x ∈ st.choices, ¬ env.outside x
  axes : ∀ x, some x ∈ st.axes → ¬ env.outside x

theorem takeClicked_within (r : Round) (st st' : State) (hw : Within env st)
    (h : takeClicked env r st = .ok st') : Within env st' := by
  rcases takeClicked_spec env r st st' h with ⟨_, rfl⟩ | ⟨titles, h1, new, h2, h2', h3, h4, h5, h6⟩
  · exact hw
  have hpick : ∀ x ∈ st.selected ∪ (st.choices ++ titles).toFinset, ¬ env.outside x := by
    intro x hx
    simp only [Finset.mem_union, List.mem_toFinset, List.mem_append] at hx
    rcases hx with hx | hx | hx
    · exact hw.selected x hx
    · exact hw.choices x hx
    · exact hw.axes x (h1 x hx)
  refine ⟨?_, ?_, ?_, ?_⟩
  · rw [h5]; exact hw.excluded.trans Finset.subset_union_left
  · intro x hx
    rw [h4, Finset.mem_union] at hx
    rcases hx with hx | hx
    · exact hpick x hx
    · by_cases hb : env.bounded
      · exact not_outside_of_strict env ((h2 x hx).2 hb)
      · by_cases he : st.selected ∪ (st.choices ++ titles).toFinset = ∅
        · rw [h2' he] at hx; simp at hx
        · obtain ⟨y, hy⟩ := Finset.nonempty_iff_ne_empty.2 he
          exact not_outside_of_unbounded env hb (hpick y hy) x
  · intro x hx
    rcases (h3 x).1 hx with hx | hx
    · exact hw.choices x hx
    · exact hw.axes x (h1 x hx)
  · intro x hx; rw [h6] at hx; simp at hx

theorem carryOn_within (r : Round) (st : State) (hi : Inv env st) (hw : Within env st) :
    Within env (carryOn env r st).1 := by
  classical
  unfold carryOn
  cases ht : takeClicked env r st with
  | error e => simpa only using hw
  | ok mid =>
    simp only
    obtain ⟨him, hgm⟩ := takeClicked_inv env r st mid hi ht
    have hwm := takeClicked_within env r st mid hw ht
    obtain ⟨hik, hgk, hax, hsel, hch, hsh, hex⟩ := keepSampling_spec env mid him
    obtain ⟨ext, hx1, hx2, hx3⟩ := hex
    simp only [List.nil_append] at hx1
    by_cases hk : (keepSampling env mid).2 = []
    · rw [if_neg (by simpa using hk)]
      obtain ⟨a1, a2, a3, a4, a5, a6, a7⟩ := initFalse_spec env r.first r.first_mem
        (keepSampling env mid).1 hik
      have hs : ∀ x ∈ (initSubsamples env r.first (keepSampling env mid).1 false).1.selected,
          ¬ env.outside x := by rw [a4, hsel]; exact hwm.selected
      have hc : ∀ x ∈ (initSubsamples env r.first (keepSampling env mid).1 false).1.choices,
          ¬ env.outside x := by rw [a5]; exact fun x hx => hwm.choices x (hch x hx)
      cases hres : (initSubsamples env r.first (keepSampling env mid).1 false).2 with
      | error e =>
        simp only
        exact ⟨a6, hs, hc, fun x hx => hwm.axes x (by dsimp only at hx; rwa [a3, hax] at hx)⟩
      | ok l =>
        simp only
        refine ⟨a6, hs, hc, ?_⟩
        intro x hx
        dsimp only at hx
        split_ifs at hx
        · simp at hx
        · rcases mem_plotTitles hx with h | h
          · exact (a7 l hres).2 x h
          · exact hwm.axes x h
    · rw [if_pos hk]
      refine ⟨hwm.excluded.trans hgk.1, ?_, fun x hx => hwm.choices x (hch x hx), ?_⟩
      · intro x hx; exact hwm.selected x (by simpa [hsel] using hx)
      · intro x hx
        rcases mem_plotTitles hx with h | h
        · rw [hx1] at h
          intro ho
          exact (hx3 x h).2.2 (hwm.excluded (by simp [Env.excluded, (hx3 x h).1, ho]))
        · exact hwm.axes x h

theorem session_within (st : State) (hi : Inv env st) (hw : Within env st) (rs : List Round) :
    Within env (session env st rs).2 := by
  induction rs generalizing st with
  | nil => exact hw
  | cons r rs ih =>
    exact ih _ (carryOn_step env r st hi).1 (carryOn_within env r st hi hw)

/-! ## Exhaustion -/

/-- the outcome of one press once the clicks have been read -/
theorem carryOn_outcome (r : Round) (st mid : State) (hi : Inv env st) (he : env.excluded ⊆ st.shown)
    (hm : takeClicked env r st = .ok mid) :
    (unseen env mid.shown = ∅ → (carryOn env r st).2 = .ok []) ∧
    (unseen env mid.shown ≠ ∅ → (keepSampling env mid).2 ≠ [] →
      ∃ l, l ≠ [] ∧ (carryOn env r st).2 = .ok l) ∧
    (unseen env mid.shown ≠ ∅ → (keepSampling env mid).2 = [] →
      if 9 ≤ (unseen env mid.shown).card then ∃ l, l.length = 9 ∧ (carryOn env r st).2 = .ok l
      else (carryOn env r st).2 = .error .valueError) := by
  classical
  obtain ⟨him, hgm⟩ := takeClicked_inv env r st mid hi hm
  obtain ⟨hik, hgk, hax, hsel, hch, hsh, hex⟩ := keepSampling_spec env mid him
  obtain ⟨ext, hx1, hx2, hx3⟩ := hex
  simp only [List.nil_append] at hx1
  have hun : mid.shown ∪ env.excluded = mid.shown := Finset.union_eq_left.2 (he.trans hgm.1)
  have hshk : (keepSampling env mid).2 = [] → (keepSampling env mid).1.shown = mid.shown := by
    intro h; rw [hsh, h]; simp
  have hcarry : (keepSampling env mid).2 = [] → (carryOn env r st).2 =
      (initSubsamples env r.first (keepSampling env mid).1 false).2 := by
    intro h
    unfold carryOn
    rw [hm]
    dsimp only
    rw [if_neg (by simpa using h)]
    cases hres : (initSubsamples env r.first (keepSampling env mid).1 false).2 <;> simp only
  refine ⟨?_, ?_, ?_⟩
  · intro h0
    have hk : (keepSampling env mid).2 = [] := by
      rw [hx1, List.eq_nil_iff_forall_not_mem]
      intro x hx
      have : x ∈ unseen env mid.shown := by simp [unseen, (hx3 x hx).1, (hx3 x hx).2.2]
      rw [h0] at this; simp at this
    rw [hcarry hk]
    rcases init_cases env r.first r.first_mem _ hik.shown false with ⟨_, h⟩ | ⟨h, _⟩ | ⟨h, _⟩ | ⟨h, _⟩
    · rw [h]
    all_goals
      rw [hshk hk, hun] at h; exact absurd h0 h
  · intro _ hk
    refine ⟨(keepSampling env mid).2, hk, ?_⟩
    unfold carryOn
    rw [hm]
    dsimp only
    rw [if_pos hk]
  · intro hne hk
    rw [hcarry hk]
    rcases init_cases env r.first r.first_mem _ hik.shown false with ⟨h0, _⟩ | ⟨_, h, _⟩ |
      ⟨_, _, h9, l, _, hl, h⟩ | ⟨_, _, h9, h⟩
    · rw [hshk hk, hun] at h0; exact absurd h0 hne
    · simp at h
    · rw [hshk hk, hun] at h9
      rw [if_pos h9]
      exact ⟨l, hl, by rw [h]⟩
    · rw [hshk hk, hun] at h9
      rw [if_neg (by omega), h]

end Verif.Ppa
