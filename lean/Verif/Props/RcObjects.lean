import Verif.Props.Rc
import Verif.Spec.RcObjects

/-!
# C102: settings objects

Iteration, `find_all`, `copy`, and contexts that are created, entered and left in any order.
-/

namespace Verif.Props
open Verif Verif.Rc Verif.Spec Verif.RcObjects

variable (env : PyEnv)

/-! ## Invariant of all programs -/

private structure Wf (w : World) : Prop where
  nodup : (w.handles.map Handle.ref ++ w.saved).Nodup
  small : ∀ r ∈ w.handles.map Handle.ref ++ w.saved, r < w.next
  zero : ∃ h, w.handles[0]? = some h ∧ h.rc = true ∧ Settled True (w.store h.ref)
  rc : ∀ h ∈ w.handles, h.rc = true → ∀ k v, w.store h.ref k = some v → Stable k v
  kept : ∀ r ∈ w.saved, Settled True (w.store r)

private theorem wf_imported {s : Store} (hs : Settled True s) : Wf (imported s) := by
  refine ⟨by simp [imported], by simp [imported], ⟨_, rfl, rfl, hs⟩, ?_, by simp [imported]⟩
  intro h _ _ k v hk
  exact settled_stable hs k v hk

/-- changing the storage of object `i` -/
private theorem wf_setAt {w : World} (hw : Wf w) {i : ℕ} {h : Handle} (hi : w.handles[i]? = some h) (s : Store)
    (hrc : h.rc = true → ∀ k v, s k = some v → Stable k v) (h0 : i = 0 → Settled True s) :
    Wf (w.setAt h.ref s) ∧ (∀ j, j ≠ i → contents (w.setAt h.ref s) j = contents w j) ∧
      (∀ j, Spec.kept (w.setAt h.ref s) j = Spec.kept w j) ∧ contents (w.setAt h.ref s) i = some s := by
  have hmem : h ∈ w.handles := List.mem_of_getElem? hi
  have hne : ∀ j h', w.handles[j]? = some h' → j ≠ i → h'.ref ≠ h.ref := by
    intro j h' hj hji he
    have hn := (List.nodup_append.1 hw.nodup).1
    obtain ⟨hj1, hj2⟩ := List.getElem?_eq_some_iff.1 hj
    obtain ⟨hi1, hi2⟩ := List.getElem?_eq_some_iff.1 hi
    refine hji ((List.Nodup.getElem_inj_iff hn (hi := by simpa using hj1) (hj := by simpa using hi1)).1 ?_)
    simp [hj2, hi2, he]
  have hsv : ∀ r ∈ w.saved, r ≠ h.ref := by
    intro r hr he
    exact (List.nodup_append.1 hw.nodup).2.2 h.ref (List.mem_map_of_mem hmem) r hr he.symm
  refine ⟨⟨hw.nodup, hw.small, ?_, ?_, ?_⟩, ?_, ?_, ?_⟩
  · obtain ⟨g, hg, hgr, hgs⟩ := hw.zero
    refine ⟨g, hg, hgr, ?_⟩
    by_cases hz : i = 0
    · subst hz
      rw [hi] at hg; injection hg with hg; subst hg
      simpa [World.setAt] using h0 rfl
    · have := hne 0 g hg (Ne.symm hz)
      simpa [World.setAt, Function.update_of_ne this] using hgs
  · intro g hg hgr k v hk
    obtain ⟨j, hj⟩ := List.getElem?_of_mem hg
    by_cases hji : j = i
    · subst hji
      change w.handles[j]? = some g at hj
      rw [hi] at hj; injection hj with hj; subst hj
      exact hrc hgr k v (by simpa [World.setAt] using hk)
    · refine hw.rc g hg hgr k v ?_
      simpa [World.setAt, Function.update_of_ne (hne j g hj hji)] using hk
  · intro r hr
    simpa [World.setAt, Function.update_of_ne (hsv r hr)] using hw.kept r hr
  · intro j hji
    unfold contents
    change (w.handles[j]?).map _ = _
    cases hj : w.handles[j]? with
    | none => rfl
    | some g => simp [World.setAt, Function.update_of_ne (hne j g hj hji)]
  · intro j
    unfold Spec.kept
    change (w.saved[j]?).map _ = _
    cases hj : w.saved[j]? with
    | none => rfl
    | some r => simp [World.setAt, Function.update_of_ne (hsv r (List.mem_of_getElem? hj))]
  · unfold contents
    change (w.handles[i]?).map _ = _
    simp [hi, World.setAt]

/-- a new object -/
private theorem wf_alloc {w : World} (hw : Wf w) (b : Bool) (s : Store)
    (hs : b = true → ∀ k v, s k = some v → Stable k v) :
    Wf (w.alloc b s) ∧ (∀ j < w.handles.length, contents (w.alloc b s) j = contents w j) ∧
      (∀ j, Spec.kept (w.alloc b s) j = Spec.kept w j) ∧ contents (w.alloc b s) w.handles.length = some s := by
  have hr : ∀ h ∈ w.handles, h.ref ≠ w.next := fun h hh =>
    (hw.small h.ref (List.mem_append_left _ (List.mem_map_of_mem hh))).ne
  have hv : ∀ r ∈ w.saved, r ≠ w.next := fun r hh => (hw.small r (List.mem_append_right _ hh)).ne
  refine ⟨⟨?_, ?_, ?_, ?_, ?_⟩, ?_, ?_, ?_⟩
  · have := hw.nodup
    rw [List.nodup_append] at this ⊢
    obtain ⟨h1, h2, h3⟩ := this
    simp only [World.alloc, List.map_append, List.map_cons, List.map_nil]
    refine ⟨?_, h2, ?_⟩
    · rw [List.nodup_append]
      refine ⟨h1, by simp, ?_⟩
      intro a ha b hb
      simp only [List.mem_singleton] at hb
      subst hb
      exact (hw.small a (List.mem_append_left _ ha)).ne
    · intro a ha b hb
      rcases List.mem_append.1 ha with ha | ha
      · exact h3 a ha b hb
      · simp only [List.mem_singleton] at ha
        subst ha
        exact (hv b hb).symm
  · intro r hr'
    simp only [World.alloc, List.map_append, List.map_cons, List.map_nil, List.mem_append, List.mem_singleton] at hr' ⊢
    rcases hr' with (h | rfl) | h
    · exact Nat.lt_succ_of_lt (hw.small r (List.mem_append_left _ h))
    · exact Nat.lt_succ_self _
    · exact Nat.lt_succ_of_lt (hw.small r (List.mem_append_right _ h))
  · obtain ⟨g, hg, hgr, hgs⟩ := hw.zero
    obtain ⟨h1, h2⟩ := List.getElem?_eq_some_iff.1 hg
    refine ⟨g, ?_, hgr, ?_⟩
    · simp only [World.alloc]
      rw [List.getElem?_append_left h1, hg]
    · simpa [World.alloc, Function.update_of_ne (hr g (List.mem_of_getElem? hg))] using hgs
  · intro g hg hgr k v hk
    simp only [World.alloc, List.mem_append, List.mem_singleton] at hg
    rcases hg with hg | rfl
    · exact hw.rc g hg hgr k v (by simpa [World.alloc, Function.update_of_ne (hr g hg)] using hk)
    · exact hs hgr k v (by simpa [World.alloc] using hk)
  · intro r hr'
    simpa [World.alloc, Function.update_of_ne (hv r hr')] using hw.kept r hr'
  · intro j hj
    unfold contents
    simp only [World.alloc]
    rw [List.getElem?_append_left hj]
    cases hg : w.handles[j]? with
    | none => rfl
    | some g => simp [Function.update_of_ne (hr g (List.mem_of_getElem? hg))]
  · intro j
    unfold Spec.kept
    simp only [World.alloc]
    cases hg : w.saved[j]? with
    | none => rfl
    | some g => simp [Function.update_of_ne (hv g (List.mem_of_getElem? hg))]
  · simp [contents, World.alloc]

private theorem apply_stable {s : Store} (hs : ∀ k v, s k = some v → Stable k v) (o : Op) :
    ∀ k v, (apply env s o).2 k = some v → Stable k v := by
  have hup : ∀ (s : Store), (∀ k v, s k = some v → Stable k v) → ∀ k w, Stable k w →
      ∀ k' v, Function.update s k (some w) k' = some v → Stable k' v := by
    intro s hs k w hw k' v h
    by_cases hk : k' = k
    · subst hk; simp at h; subst h; exact hw
    · rw [Function.update_of_ne hk] at h; exact hs k' v h
  have hset : ∀ k v, ∀ k' v', (setItem env s k v).2 k' = some v' → Stable k' v' := by
    intro k v
    rcases setItem_cases env s k v with ⟨e, h⟩ | ⟨w, hw, h⟩ <;> rw [h]
    · exact hs
    · exact hup s hs k w hw
  cases o with
  | set k v => exact hset k v
  | update l =>
    have := updateItems_ind env (fun s => ∀ k v, s k = some v → Stable k v) (fun s k w h1 h2 => hup s h1 k w h2) l s hs
    exact this
  | del k => exact hs
  | pop k => exact hs
  | popitem => exact hs
  | clear => exact hs
  | setdefault k v => exact hs

private theorem apply_settled {s : Store} (hs : Settled True s) (o : Op) : Settled True (apply env s o).2 :=
  settings_invariant_partial env hs [o]

private theorem ctxInit_settled {s : Store} (hs : Settled True s) (a : CtxArgs) :
    Settled True (ctxInit env a s).2 ∧ ∀ o, (ctxInit env a s).1 = .ok o → o = s := by
  have hupd : ∀ (l : List (String × PyVal)) {s : Store}, Settled True s → Settled True (updateItems env s l).2 :=
    fun l s hs => updateItems_ind env (Settled True) (fun s k w hs hw => settled_update hs hw) l s hs
  have hf : Settled True (ctxFile env a.file s).2 := by
    unfold ctxFile
    cases a.file with
    | none => exact hs
    | some ls =>
      cases hr : readFile env ls with
      | error e => simpa [hr] using hs
      | ok c => simpa [hr] using hupd (items c sortedKeys) hs
  unfold ctxInit
  cases h1 : ctxFile env a.file s with
  | mk r t =>
    rw [h1] at hf
    cases r with
    | error e => exact ⟨hf, by simp⟩
    | ok u =>
      have h2 := hupd a.rc hf
      cases h3 : updateItems env t a.rc with
      | mk r' t' =>
        rw [h3] at h2
        cases r' with
        | error e => simpa [h3] using h2
        | ok u => simpa [h3] using h2

private theorem exit_restores {orig s : Store} (ho : Settled True orig) (hs : Settled True s) :
    ctxExit env orig s = (.ok (), orig) := by
  unfold ctxExit
  rw [updateItems_items env orig (settled_stable ho)]
  congr 1
  funext k
  by_cases hk : k ∈ known
  · rw [if_pos hk]
    obtain ⟨v, hv⟩ := (ho.keys k).2 (by simpa [known] using hk)
    simp [hv]
  · rw [if_neg hk]
    have h1 : ¬ ∃ v, s k = some v := fun h => hk (by simpa [known] using (hs.keys k).1 h)
    have h2 : ¬ ∃ v, orig k = some v := fun h => hk (by simpa [known] using (ho.keys k).1 h)
    rw [Option.eq_none_iff_forall_ne_some.2 fun v hv => h1 ⟨v, hv⟩,
      Option.eq_none_iff_forall_ne_some.2 fun v hv => h2 ⟨v, hv⟩]

private theorem findAll_eq (m : String → Bool) {s : Store} (hs : ∀ k v, s k = some v → Stable k v) :
    RcObjects.findAll env m s = .ok fun k => if m k then s k else none := by
  have hf : (items s sortedKeys).filter (fun p => m p.1) =
      items (fun k => if m k then s k else none) sortedKeys := by
    have : ∀ l : List String, (items s l).filter (fun p => m p.1) = items (fun k => if m k then s k else none) l := by
      intro l
      induction l with
      | nil => rfl
      | cons x xs ih =>
        unfold items at ih ⊢
        cases hx : s x with
        | none => simpa [List.filterMap_cons, hx] using ih
        | some v => by_cases hm : m x <;> simp [hx, hm, ih]
    exact this _
  unfold RcObjects.findAll
  rw [hf, updateItems_items env _ (fun k v h => hs k v (by by_cases hm : m k <;> simp [hm] at h; exact h))]
  simp only [finish]
  congr 1
  funext k
  by_cases hk : k ∈ sortedKeys
  · simp [hk]
  · have : s k = none := by
      rw [Option.eq_none_iff_forall_ne_some]
      intro v hv
      apply hk
      rcases hs k v hv with ⟨rfl, -⟩ | ⟨rfl, -⟩ | ⟨rfl, -⟩ <;> simp [sortedKeys]
    simp [hk, this]

private theorem step_frame {w : World} (hw : Wf w) (a : Act) :
    Wf (step env w a).2 ∧ (w.handles.length ≤ (step env w a).2.handles.length) ∧
    (∀ j, target a ≠ some j → j < w.handles.length → contents (step env w a).2 j = contents w j) ∧
    (∀ j < w.saved.length, Spec.kept (step env w a).2 j = Spec.kept w j) ∧
    (w.saved.length ≤ (step env w a).2.saved.length) := by
  have same : Wf w ∧ (w.handles.length ≤ w.handles.length) ∧
    (∀ j, target a ≠ some j → j < w.handles.length → contents w j = contents w j) ∧
    (∀ j < w.saved.length, Spec.kept w j = Spec.kept w j) ∧ (w.saved.length ≤ w.saved.length) :=
    ⟨hw, le_rfl, fun _ _ _ => rfl, fun _ _ => rfl, le_rfl⟩
  have set1 : ∀ {i : ℕ} {h : Handle} (s : Store), w.handles[i]? = some h → target a = some i →
      (h.rc = true → ∀ k v, s k = some v → Stable k v) → (i = 0 → Settled True s) →
      Wf (w.setAt h.ref s) ∧ (w.handles.length ≤ (w.setAt h.ref s).handles.length) ∧
      (∀ j, target a ≠ some j → j < w.handles.length → contents (w.setAt h.ref s) j = contents w j) ∧
      (∀ j < w.saved.length, Spec.kept (w.setAt h.ref s) j = Spec.kept w j) ∧
      (w.saved.length ≤ (w.setAt h.ref s).saved.length) := by
    intro i h s hi ht h1 h2
    obtain ⟨g1, g2, g3, -⟩ := wf_setAt hw hi s h1 h2
    exact ⟨g1, le_rfl, fun j hj _ => g2 j (fun e => hj (by rw [ht, e])), fun j _ => g3 j, le_rfl⟩
  have new1 : ∀ (b : Bool) (s : Store), (b = true → ∀ k v, s k = some v → Stable k v) →
      Wf (w.alloc b s) ∧ (w.handles.length ≤ (w.alloc b s).handles.length) ∧
      (∀ j, target a ≠ some j → j < w.handles.length → contents (w.alloc b s) j = contents w j) ∧
      (∀ j < w.saved.length, Spec.kept (w.alloc b s) j = Spec.kept w j) ∧
      (w.saved.length ≤ (w.alloc b s).saved.length) := by
    intro b s hs
    obtain ⟨g1, g2, g3, -⟩ := wf_alloc hw b s hs
    exact ⟨g1, by simp [World.alloc], fun j _ hj => g2 j hj, fun j _ => g3 j, le_rfl⟩
  obtain ⟨z, hz, hzrc, hzs⟩ := hw.zero
  cases a with
  | on i o =>
    simp only [step]
    cases hi : w.handles[i]? with
    | none => exact same
    | some h =>
      obtain ⟨b, r⟩ := h
      cases b with
      | false => exact same
      | true =>
        have hst := apply_stable env (hw.rc _ (List.mem_of_getElem? hi) rfl) o
        have h0 : i = 0 → Settled True (apply env (w.store r) o).2 := by
          intro h0
          subst h0
          rw [hz] at hi
          injection hi with hi
          subst hi
          exact apply_settled env hzs o
        cases ho : apply env (w.store r) o with
        | mk res s =>
          rw [ho] at hst h0
          simp only [ho]
          cases res with
          | error e => exact set1 s hi rfl (fun _ => hst) h0
          | ok u => exact set1 s hi rfl (fun _ => hst) h0
  | put i k v =>
    simp only [step]
    cases hi : w.handles[i]? with
    | none => exact same
    | some h =>
      obtain ⟨b, r⟩ := h
      cases b with
      | true => exact same
      | false =>
        refine set1 _ hi rfl (by simp) ?_
        rintro rfl
        rw [hz] at hi; injection hi with hi; subst hi; simp at hzrc
  | remove i k =>
    simp only [step]
    cases hi : w.handles[i]? with
    | none => exact same
    | some h =>
      obtain ⟨b, r⟩ := h
      cases b with
      | true => exact same
      | false =>
        simp only
        split
        · refine set1 _ hi rfl (by simp) ?_
          rintro rfl
          rw [hz] at hi; injection hi with hi; subst hi; simp at hzrc
        · exact same
  | findAll i m =>
    simp only [step]
    cases hi : w.handles[i]? with
    | none => exact same
    | some h =>
      obtain ⟨b, r⟩ := h
      cases b with
      | false => exact same
      | true =>
        have hst := hw.rc _ (List.mem_of_getElem? hi) rfl
        simp only [findAll_eq env m hst]
        refine new1 true _ fun _ k v h => hst k v ?_
        by_cases hm : m k <;> simp [hm] at h
        exact h
  | copy i =>
    simp only [step]
    cases hi : w.handles[i]? with
    | none => exact same
    | some h => exact new1 false _ (by simp)
  | context a =>
    simp only [step, hz]
    have hc := ctxInit_settled env hzs a
    cases hi : ctxInit env a (w.store z.ref) with
    | mk res s =>
      rw [hi] at hc
      have hset := set1 s hz rfl (fun _ => settled_stable hc.1) (fun _ => hc.1)
      cases res with
      | error e => exact hset
      | ok orig =>
        obtain rfl := hc.2 orig rfl
        obtain ⟨hw', -, hcont, hkept, -⟩ := hset
        have hr : ∀ h ∈ w.handles, h.ref ≠ w.next := fun h hh =>
          (hw.small h.ref (List.mem_append_left _ (List.mem_map_of_mem hh))).ne
        have hv : ∀ r ∈ w.saved, r ≠ w.next := fun r hh => (hw.small r (List.mem_append_right _ hh)).ne
        refine ⟨⟨?_, ?_, ?_, ?_, ?_⟩, le_rfl, ?_, ?_, by simp [World.setAt]⟩
        · have := hw.nodup
          simp only [World.setAt]
          rw [← List.append_assoc, List.nodup_append]
          refine ⟨this, by simp, ?_⟩
          intro a ha b hb
          simp only [List.mem_singleton] at hb
          subst hb
          exact (hw.small a ha).ne
        · intro r hr'
          simp only [World.setAt] at hr' ⊢
          rw [← List.append_assoc, List.mem_append] at hr'
          rcases hr' with h | h
          · exact Nat.lt_succ_of_lt (hw.small r h)
          · simp only [List.mem_singleton] at h
            subst h
            exact Nat.lt_succ_self _
        · refine ⟨z, hz, hzrc, ?_⟩
          simp only [World.setAt]
          rw [Function.update_of_ne (hr z (List.mem_of_getElem? hz))]
          simpa using hc.1
        · intro g hg hgr k v hk
          refine hw'.rc g hg hgr k v ?_
          simp only [World.setAt] at hk ⊢
          rwa [Function.update_of_ne (hr g hg)] at hk
        · intro r hr'
          simp only [World.setAt, List.mem_append, List.mem_singleton] at hr' ⊢
          rcases hr' with h | rfl
          · rw [Function.update_of_ne (hv r h)]
            exact hw'.kept r h
          · simpa using hzs
        · intro j hj hjl
          rw [← hcont j hj hjl]
          unfold contents
          simp only [World.setAt]
          cases hg : w.handles[j]? with
          | none => rfl
          | some g =>
            simp only [Option.map_some]
            rw [Function.update_of_ne (hr g (List.mem_of_getElem? hg))]
        · intro j hj
          rw [← hkept j hj]
          unfold Spec.kept
          simp only [World.setAt]
          rw [List.getElem?_append_left hj]
          cases hg : w.saved[j]? with
          | none => rfl
          | some g =>
            simp only [Option.map_some]
            rw [Function.update_of_ne (hv g (List.mem_of_getElem? hg))]
  | enter j =>
    simp only [step]
    split <;> exact same
  | exit j =>
    simp only [step]
    cases hj : w.saved[j]? with
    | none => exact same
    | some c =>
      have hc := hw.kept c (List.mem_of_getElem? hj)
      simp only [hz, exit_restores env hc hzs]
      exact set1 _ hz rfl (fun _ => settled_stable hc) (fun _ => hc)

private theorem run_frame {w : World} (hw : Wf w) (l : List Act) :
    Wf (run env w l) ∧ (w.handles.length ≤ (run env w l).handles.length) ∧
    (∀ j, (∀ a ∈ l, target a ≠ some j) → j < w.handles.length → contents (run env w l) j = contents w j) ∧
    (∀ j < w.saved.length, Spec.kept (run env w l) j = Spec.kept w j) ∧
    (w.saved.length ≤ (run env w l).saved.length) := by
  induction l generalizing w with
  | nil => exact ⟨hw, le_rfl, fun _ _ _ => rfl, fun _ _ => rfl, le_rfl⟩
  | cons a as ih =>
    obtain ⟨h1, h2, h3, h4, h5⟩ := step_frame env hw a
    obtain ⟨g1, g2, g3, g4, g5⟩ := ih h1
    have : run env w (a :: as) = run env (step env w a).2 as := rfl
    rw [this]
    refine ⟨g1, h2.trans g2, ?_, ?_, h5.trans g5⟩
    · intro j hj hl
      rw [g3 j (fun b hb => hj b (List.mem_cons_of_mem _ hb)) (hl.trans_le h2), h3 j (hj a (by simp)) hl]
    · intro j hj
      rw [g4 j (hj.trans_le h5), h4 j hj]

/-! ## Independence -/

/-- In every program, whatever it does and whatever fails, an object (the settings, the result of a `find_all`, a copy)
is only changed by actions on that object: the other objects never see it. -/
theorem settings_objects_independent {s : Store} (hs : Settled True s) (before after : List Act) (j : ℕ)
    (hj : j < (run env (imported s) before).handles.length) (h : ∀ a ∈ after, target a ≠ some j) :
    contents (run env (imported s) (before ++ after)) j = contents (run env (imported s) before) j := by
  have : run env (imported s) (before ++ after) = run env (run env (imported s) before) after := by
    simp [run, List.foldl_append]
  rw [this]
  exact (run_frame env (run_frame env (wf_imported hs) before).1 after).2.2.1 j h hj

/-- In every program the settings stay complete and valid, and every RcParams object made by `find_all` holds valid values
of known settings only. -/
theorem settings_objects_valid {s : Store} (hs : Settled True s) (l : List Act) :
    (∃ t, contents (run env (imported s) l) 0 = some t ∧ Settled True t) ∧
    ∀ h ∈ (run env (imported s) l).handles, h.rc = true → ∀ k v, (run env (imported s) l).store h.ref k = some v →
      (k = "stats.ci_kind" ∧ (v = .str "eti" ∨ v = .str "hdi")) ∨
      (k = "stats.ci_prob" ∧ (v = .num none ∨ ∃ p : ℝ, 0 ≤ p ∧ p ≤ 1 ∧ v = .num (some (p : EReal)))) ∨
      (k = "plots.show_plot" ∧ ∃ b, v = .bool b) := by
  have hw := (run_frame env (wf_imported hs) l).1
  obtain ⟨z, hz, -, hzs⟩ := hw.zero
  exact ⟨⟨_, by simp [contents, hz], hzs⟩, fun h hh hr k v hk => hw.rc h hh hr k v hk⟩

/-- `find_all` makes a new object with exactly the settings whose key matches, with the values of this moment. -/
theorem find_all_subset {s : Store} (hs : Settled True s) (l : List Act) (m : String → Bool) :
    ∃ t, contents (run env (imported s) l) 0 = some t ∧
      (step env (run env (imported s) l) (.findAll 0 m)).1 = .ok (some (run env (imported s) l).handles.length) ∧
      contents (step env (run env (imported s) l) (.findAll 0 m)).2 (run env (imported s) l).handles.length =
        some fun k => if m k then t k else none := by
  have hw := (run_frame env (wf_imported hs) l).1
  obtain ⟨z, hz, hzr, hzs⟩ := hw.zero
  obtain ⟨b, r⟩ := z
  simp only at hzr
  subst hzr
  refine ⟨(run env (imported s) l).store r, by simp [contents, hz], ?_⟩
  have hst := hw.rc _ (List.mem_of_getElem? hz) rfl
  simp only [step, hz, findAll_eq env m hst]
  refine ⟨by trivial, (wf_alloc hw true _ ?_).2.2.2⟩
  intro _ k v h
  by_cases hm : m k <;> simp [hm] at h
  exact hst k v h

/-- `copy` makes a new dictionary with the values of this moment. -/
theorem copy_contents {s : Store} (hs : Settled True s) (l : List Act) (i : ℕ)
    (hi : i < (run env (imported s) l).handles.length) :
    (step env (run env (imported s) l) (.copy i)).1 = .ok (some (run env (imported s) l).handles.length) ∧
    contents (step env (run env (imported s) l) (.copy i)).2 (run env (imported s) l).handles.length =
      contents (run env (imported s) l) i := by
  have hw := (run_frame env (wf_imported hs) l).1
  have hg : (run env (imported s) l).handles[i]? = some (run env (imported s) l).handles[i] := by simp
  simp only [step, hg]
  refine ⟨trivial, ?_⟩
  rw [(wf_alloc hw false _ (by simp)).2.2.2]
  simp [contents, hg]

/-- a program: the settings are searched, changed and copied, and the copy is changed -/
example : ∃ t, contents (run exampleEnv (imported exampleStore)
      [.findAll 0 (fun k => k = "stats.ci_kind"), .on 0 (.set "stats.ci_kind" (.str "eti")), .copy 0,
        .put 2 "plots.show_plot" (.str "no")]) 1 = some t ∧ t "stats.ci_kind" = some (.str "hdi") ∧
    t "stats.ci_prob" = none := by
  have hs := settled_weaken exampleStore_settled
  have h1 := settings_objects_independent exampleEnv hs [.findAll 0 (fun k => k = "stats.ci_kind")]
    [.on 0 (.set "stats.ci_kind" (.str "eti")), .copy 0, .put 2 "plots.show_plot" (.str "no")] 1
  obtain ⟨t, ht, -, hc⟩ := find_all_subset exampleEnv hs [] (fun k => k = "stats.ci_kind")
  have ht' : t = exampleStore := by simpa [run, contents, imported] using ht.symm
  subst ht'
  refine ⟨_, (h1 ?_ (by simp [target])).trans hc, by simp [exampleStore], by simp⟩
  simp [run, step, imported, findAll_eq exampleEnv _ (settled_stable hs), World.alloc]

/-! ## Contexts in any order -/

/-- Whatever happened since - other contexts created, entered or left in any order, assignments, failures - leaving a
context gives the settings of the moment it was created. -/
theorem context_exit_any_order {s : Store} (hs : Settled True s) (before mid : List Act) (a : CtxArgs)
    (hok : (step env (run env (imported s) before) (.context a)).1 = .ok none) :
    contents (run env (imported s) (before ++ .context a :: mid ++
        [.exit (run env (imported s) before).saved.length])) 0 =
      contents (run env (imported s) before) 0 := by
  have hw := (run_frame env (wf_imported hs) before).1
  set w := run env (imported s) before with hwd
  obtain ⟨z, hz, hzr, hzs⟩ := hw.zero
  have hc := ctxInit_settled env hzs a
  obtain ⟨hw1, -, -, -, hlen1⟩ := step_frame env hw (.context a)
  have hk : Spec.kept (step env w (.context a)).2 w.saved.length = some (w.store z.ref) := by
    simp only [step, hz] at hok ⊢
    cases hi : ctxInit env a (w.store z.ref) with
    | mk res t =>
      rw [hi] at hc hok
      cases res with
      | error e => simp at hok
      | ok orig =>
        obtain rfl := hc.2 orig rfl
        simp [Spec.kept]
  have hrun : run env (imported s) (before ++ .context a :: mid ++ [.exit w.saved.length]) =
      (step env (run env (step env w (.context a)).2 mid) (.exit w.saved.length)).2 := by
    simp [run, List.foldl_append, hwd]
  have hl : w.saved.length < (step env w (.context a)).2.saved.length := by
    by_contra hn
    have : (step env w (.context a)).2.saved[w.saved.length]? = none := List.getElem?_eq_none (not_lt.1 hn)
    simp [Spec.kept, this] at hk
  obtain ⟨hw2, -, -, hkept, -⟩ := run_frame env hw1 mid
  have hk2 := hkept _ hl
  rw [hk] at hk2
  rw [hrun]
  generalize run env (step env w (.context a)).2 mid = u at hw2 hk2 ⊢
  obtain ⟨z2, hz2, -, hz2s⟩ := hw2.zero
  unfold Spec.kept at hk2
  cases hg : u.saved[w.saved.length]? with
  | none => simp [hg] at hk2
  | some c =>
    simp only [hg, Option.map_some, Option.some.injEq] at hk2
    have hcs := hw2.kept c (List.mem_of_getElem? hg)
    simp only [step, hg, hz2, exit_restores env hcs hz2s]
    rw [(wf_setAt hw2 hz2 _ (fun _ => settled_stable hcs) (fun _ => hcs)).2.2.2, hk2]
    simp [contents, hz]

/-- a context around an assignment -/
example : contents (run exampleEnv (imported exampleStore) [.context ⟨[("stats.ci_kind", .str "eti")], none⟩, .enter 0,
    .on 0 (.set "stats.ci_prob" (.num none)), .exit 0]) 0 = some exampleStore := by
  have hk : Stable "stats.ci_kind" (.str "eti") := Or.inl ⟨rfl, Or.inl rfl⟩
  have := context_exit_any_order exampleEnv (settled_weaken exampleStore_settled) []
    [.enter 0, .on 0 (.set "stats.ci_prob" (.num none))] ⟨[("stats.ci_kind", .str "eti")], none⟩
    (by simp [run, step, imported, ctxInit, ctxFile, updateItems, setItem_stable exampleEnv _ hk])
  simpa [run, imported, contents] using this

/-- Entering a context does nothing: only its creation changes the settings. -/
theorem context_enter_nothing (w : World) (j : ℕ) : (step env w (.enter j)).2 = w := by
  simp only [step]
  split <;> rfl

/-- negation for a context object used twice: in the second `with` block the settings asked for are not in force -/
theorem context_reused : ∃ (a : CtxArgs) (t : Store),
    contents (run exampleEnv (imported exampleStore) [.context a, .enter 0]) 0 = some t ∧
      t "stats.ci_kind" = some (.str "eti") ∧
    contents (run exampleEnv (imported exampleStore) [.context a, .enter 0, .exit 0, .enter 0]) 0 = some exampleStore ∧
      exampleStore "stats.ci_kind" = some (.str "hdi") := by
  have hk : Stable "stats.ci_kind" (.str "eti") := Or.inl ⟨rfl, Or.inl rfl⟩
  have hs := settled_weaken exampleStore_settled
  refine ⟨⟨[("stats.ci_kind", .str "eti")], none⟩, Function.update exampleStore "stats.ci_kind" (some (.str "eti")),
    ?_, by simp, ?_, by simp [exampleStore]⟩
  · simp [run, step, imported, ctxInit, ctxFile, updateItems, setItem_stable exampleEnv _ hk, contents, World.setAt]
  · have := context_exit_any_order exampleEnv hs [] [.enter 0] ⟨[("stats.ci_kind", .str "eti")], none⟩
      (by simp [run, step, imported, ctxInit, ctxFile, updateItems, setItem_stable exampleEnv _ hk])
    have he : ∀ w : World, (step exampleEnv w (.enter 0)).2 = w := fun w => context_enter_nothing exampleEnv w 0
    simp only [run, List.foldl_append, List.nil_append, List.cons_append, List.foldl_cons, List.foldl_nil, he] at this ⊢
    simpa [imported, contents] using this

/-- negation for contexts that are left in the order of their creation: the settings of the first stay in force for good -/
theorem contexts_crossed : ∃ (a b : CtxArgs) (t : Store),
    contents (run exampleEnv (imported exampleStore) [.context a, .context b, .exit 0, .exit 1]) 0 = some t ∧
      t "stats.ci_kind" = some (.str "eti") ∧ exampleStore "stats.ci_kind" = some (.str "hdi") := by
  have hk : Stable "stats.ci_kind" (.str "eti") := Or.inl ⟨rfl, Or.inl rfl⟩
  have hs := settled_weaken exampleStore_settled
  refine ⟨⟨[("stats.ci_kind", .str "eti")], none⟩, ⟨[], none⟩,
    Function.update exampleStore "stats.ci_kind" (some (.str "eti")), ?_, by simp, by simp [exampleStore]⟩
  have := context_exit_any_order exampleEnv hs [.context ⟨[("stats.ci_kind", .str "eti")], none⟩] [.exit 0] ⟨[], none⟩
      (by simp [run, step, imported, ctxInit, ctxFile, updateItems, setItem_stable exampleEnv _ hk, World.setAt])
  have hl : (run exampleEnv (imported exampleStore) [.context ⟨[("stats.ci_kind", .str "eti")], none⟩]).saved.length = 1 := by
    simp [run, step, imported, ctxInit, ctxFile, updateItems, setItem_stable exampleEnv _ hk]
  rw [hl] at this
  refine this.trans ?_
  simp [run, step, imported, ctxInit, ctxFile, updateItems, setItem_stable exampleEnv _ hk, contents, World.setAt]

/-! ## Iteration and text -/

/-- Iterating over an RcParams object gives the keys that have a value, each once, in alphabetical order, and `len` counts
them. -/
theorem settings_iteration {s : Store} (hs : Settled True s) (l : List Act) (h : Handle)
    (hh : h ∈ (run env (imported s) l).handles) (hr : h.rc = true) :
    (keys ((run env (imported s) l).store h.ref)).Pairwise (fun a b => a.toList < b.toList) ∧
    (∀ k, k ∈ keys ((run env (imported s) l).store h.ref) ↔ ∃ v, (run env (imported s) l).store h.ref k = some v) ∧
    len ((run env (imported s) l).store h.ref) =
      {k | ∃ v, (run env (imported s) l).store h.ref k = some v}.ncard := by
  have hw := (run_frame env (wf_imported hs) l).1
  have hst := hw.rc h hh hr
  set t := (run env (imported s) l).store h.ref
  have hsorted : sortedKeys.Pairwise (fun a b => a.toList < b.toList) := by
    simp [sortedKeys]
    decide
  have hmem : ∀ k, k ∈ keys t ↔ ∃ v, t k = some v := by
    intro k
    simp only [keys, List.mem_filter, Option.isSome_iff_exists]
    refine ⟨fun h => h.2, fun ⟨v, hv⟩ => ⟨?_, v, hv⟩⟩
    rcases hst k v hv with ⟨rfl, -⟩ | ⟨rfl, -⟩ | ⟨rfl, -⟩ <;> simp [sortedKeys]
  refine ⟨hsorted.filter _, hmem, ?_⟩
  have hnd : (keys t).Nodup := List.Nodup.filter _ (by simp [sortedKeys])
  rw [len, ← List.toFinset_card_of_nodup hnd, ← Set.ncard_coe_finset]
  congr 1
  ext k
  simp [hmem]

/-- The settings themselves always have three keys. -/
theorem settings_three {s : Store} (hs : Settled True s) (l : List Act) :
    ∃ t, contents (run env (imported s) l) 0 = some t ∧
      keys t = ["plots.show_plot", "stats.ci_kind", "stats.ci_prob"] ∧ len t = 3 := by
  obtain ⟨⟨t, ht, h⟩, -⟩ := settings_objects_valid env hs l
  have h1 := h.keys "stats.ci_kind"
  have h2 := h.keys "stats.ci_prob"
  have h3 := h.keys "plots.show_plot"
  simp only [true_or, or_true, iff_true] at h1 h2 h3
  obtain ⟨v1, h1⟩ := h1
  obtain ⟨v2, h2⟩ := h2
  obtain ⟨v3, h3⟩ := h3
  exact ⟨t, ht, by simp [keys, sortedKeys, h1, h2, h3], by simp [len, keys, sortedKeys, h1, h2, h3]⟩

/-- Printing the settings gives a line for each of them in alphabetical order, the values aligned. -/
theorem settings_text (show_ : PyVal → List Char) {s : Store} (hs : Settled True s) :
    ∃ v1 v2 v3, s "plots.show_plot" = some v1 ∧ s "stats.ci_kind" = some v2 ∧ s "stats.ci_prob" = some v3 ∧
      strLines show_ s = ["plots.show_plot       : ".toList ++ show_ v1, "stats.ci_kind         : ".toList ++ show_ v2,
        "stats.ci_prob         : ".toList ++ show_ v3] := by
  have h1 := hs.keys "stats.ci_kind"
  have h2 := hs.keys "stats.ci_prob"
  have h3 := hs.keys "plots.show_plot"
  simp only [true_or, or_true, iff_true] at h1 h2 h3
  obtain ⟨v1, h1⟩ := h1
  obtain ⟨v2, h2⟩ := h2
  obtain ⟨v3, h3⟩ := h3
  refine ⟨v3, v1, v2, h3, h1, h2, ?_⟩
  simp [strLines, items, sortedKeys, h1, h2, h3, List.replicate]

/-- the settings of the examples -/
example : Settled True exampleStore := settled_weaken exampleStore_settled

end Verif.Props
