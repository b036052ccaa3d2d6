import Verif.Model.PpaUi
import Verif.Props.Ppa

/-!
# C114: the panels of the prior predictive assistant
-/

namespace Verif.Props
open Verif Verif.Ppa

/-- what always holds: the chosen panels are the framed ones, each is chosen once, and exists -/
structure UiOk (u : Ui) : Prop where
  framed : ∀ p, p ∈ u.framed ↔ p ∈ u.clicked
  once : u.clicked.Nodup
  panels : ∀ p ∈ u.clicked, p < u.st.axes.length

private theorem click_ok (u : Ui) (h : UiOk u) (p : ℕ) : UiOk (u.click p) := by
  unfold Ui.click
  split_ifs with h1 h2
  · refine ⟨fun q => ?_, h.once.erase p, fun q hq => h.panels q (List.mem_of_mem_erase hq)⟩
    simp only [Finset.mem_union, List.mem_toFinset, Finset.mem_erase, h.once.mem_erase_iff, h.framed q]
    tauto
  · refine ⟨fun q => ?_, ?_, ?_⟩
    · simp only [Finset.mem_union, List.mem_toFinset, List.mem_append, List.mem_singleton, h.framed q]
      tauto
    · rw [List.nodup_append]
      exact ⟨h.once, by simp, by rintro a ha b hb rfl; simp at hb; subst hb; exact h2 ha⟩
    · intro q hq
      rcases List.mem_append.mp hq with hq | hq
      · exact h.panels q hq
      · simp at hq; subst hq; exact h1
  · exact h

private theorem carry_ok (env : Env) (u : Ui) (h : UiOk u) (r : Round) : UiOk (u.carry env r) := by
  unfold Ui.carry
  dsimp only
  cases takeClicked env { r with clicked := u.clicked } u.st with
  | error e => exact h
  | ok mid =>
    refine ⟨fun q => ?_, by simp, by simp⟩
    dsimp only
    split_ifs
    · simp
    · simp [h.framed q]

/-- C114: at every moment of a session the panels with a frame are exactly the chosen ones -/
theorem ppa_frames (env : Env) (u : Ui) (h : UiOk u) (es : List Event) : UiOk (u.run env es) := by
  unfold Ui.run
  induction es generalizing u with
  | nil => exact h
  | cons e es ih =>
    refine ih _ ?_
    cases e with
    | click p => exact click_ok u h p
    | carry r => exact carry_ok env u h r

/-- the session starts without a frame -/
theorem ppa_frames_open (env : Env) (first : List ℕ → ℕ) (target : Bool) : UiOk (Ui.opened env first target) :=
  ⟨by simp [Ui.opened], by simp [Ui.opened], by simp [Ui.opened]⟩

private theorem click_st (u : Ui) (p : ℕ) : (u.click p).st = u.st := by
  unfold Ui.click
  split_ifs <;> rfl

private theorem clicks_st (env : Env) (u : Ui) (ps : List ℕ) : (u.run env (ps.map .click)).st = u.st := by
  induction ps generalizing u with
  | nil => rfl
  | cons p ps ih =>
    have := ih (u.click p)
    rw [click_st] at this
    exact this

private theorem click_mem (u : Ui) (h : UiOk u) (p q : ℕ) :
    q ∈ (u.click p).framed ↔ if q = p ∧ p < u.st.axes.length then q ∉ u.framed else q ∈ u.framed := by
  rw [(click_ok u h p).framed, h.framed]
  unfold Ui.click
  split_ifs with h1 h2 h3 h4 h5
  · obtain ⟨rfl, -⟩ := h3
    simp [h.once.mem_erase_iff, h2]
  · have : q ≠ p := fun e => h3 ⟨e, h1⟩
    simp [h.once.mem_erase_iff, this]
  · obtain ⟨rfl, -⟩ := h4
    simp [h2]
  · have : q ≠ p := fun e => h4 ⟨e, h1⟩
    simp [this]
  · exact absurd h5.2 h1
  · rfl

/-- C114: clicks alone: the frame of a panel changes with every click on it, and with nothing else -/
theorem ppa_clicks_toggle (env : Env) (u : Ui) (h : UiOk u) (ps : List ℕ) (q : ℕ) (hq : q < u.st.axes.length) :
    (q ∈ (u.run env (ps.map .click)).framed ↔ (q ∈ u.framed ↔ Even (ps.count q))) ∧
    (u.run env (ps.map .click)).st = u.st := by
  refine ⟨?_, clicks_st env u ps⟩
  induction ps generalizing u with
  | nil => simp [Ui.run]
  | cons p ps ih =>
    have key := ih (u.click p) (click_ok u h p) (by rw [click_st]; exact hq)
    have e : (u.run env ((p :: ps).map .click)) = (u.click p).run env (ps.map .click) := rfl
    rw [e, key, click_mem u h p q]
    by_cases hpq : q = p
    · subst hpq
      rw [if_pos ⟨rfl, hq⟩, List.count_cons_self, Nat.even_add_one]
      tauto
    · rw [if_neg (fun h => hpq h.1), List.count_cons_of_ne (fun h => hpq h.symm)]

/-- C114: a press of "carry on" either is refused and changes nothing, which happens exactly if a chosen panel is
blank, or ends with no panel chosen and no frame -/
theorem ppa_press (env : Env) (u : Ui) (h : UiOk u) (r : Round) :
    ((∃ p ∈ u.framed, u.st.axes[p]? = some none) → u.carry env r = u) ∧
    ((∀ p ∈ u.framed, ∃ i, u.st.axes[p]? = some (some i)) →
      (u.carry env r).framed = ∅ ∧ (u.carry env r).clicked = [] ∧
      (u.carry env r).st = (carryOn env { r with clicked := u.clicked } u.st).1) := by
  constructor
  · rintro ⟨p, hp, hb⟩
    have hp' := (h.framed p).mp hp
    have hne : u.clicked ≠ [] := List.ne_nil_of_mem hp'
    have key : ∀ l : List ℕ, p ∈ l → ∃ e, l.mapM (titleOf u.st.axes) = Except.error e := by
      intro l
      induction l with
      | nil => intro h; simp at h
      | cons a l ih =>
        intro hl
        rw [List.mapM_cons]
        cases ha : titleOf u.st.axes a with
        | error e => exact ⟨e, rfl⟩
        | ok t =>
          have : p ≠ a := by rintro rfl; simp [titleOf, hb] at ha
          obtain ⟨e, he⟩ := ih ((List.mem_cons.mp hl).resolve_left this)
          exact ⟨e, by rw [he]; rfl⟩
    obtain ⟨e, he⟩ := key _ hp'
    have : takeClicked env { r with clicked := u.clicked } u.st = .error e := by
      rw [takeClicked, if_neg hne]
      dsimp only
      rw [he]; rfl
    unfold Ui.carry
    dsimp only
    rw [this]
  · intro ht
    obtain ⟨mid, hm⟩ := ppa_clicks_read env u.st { r with clicked := u.clicked } fun p hp => ht p ((h.framed p).mpr hp)
    have ok := carry_ok env u h r
    have e : u.carry env r = ⟨(carryOn env { r with clicked := u.clicked } u.st).1, [],
        if (carryOn env { r with clicked := u.clicked } u.st).1.axes = [] then ∅ else u.framed \ u.clicked.toFinset⟩ := by
      unfold Ui.carry
      dsimp only
      rw [hm]
    refine ⟨?_, by rw [e], by rw [e]⟩
    ext p
    rw [ok.framed, e]
    simp

/-- C114: after a refused press, clicking the blank panels once more makes the next press succeed, and the other
choices are kept -/
theorem ppa_recovers (env : Env) (u : Ui) (h : UiOk u) (r : Round) (bad : List ℕ) (hn : bad.Nodup)
    (hb : ∀ p, p ∈ bad ↔ p ∈ u.framed ∧ u.st.axes[p]? = some none) :
    let u' := u.run env (bad.map .click)
    u'.st = u.st ∧ (∀ p, p ∈ u'.framed ↔ p ∈ u.framed ∧ ∃ i, u.st.axes[p]? = some (some i)) ∧
    (u'.carry env r).framed = ∅ ∧ (u'.carry env r).st = (carryOn env { r with clicked := u'.clicked } u.st).1 := by
  intro u'
  have hst : u'.st = u.st := clicks_st env u bad
  have ok : UiOk u' := ppa_frames env u h _
  have title : ∀ p, p < u.st.axes.length → u.st.axes[p]? = some none ∨ ∃ i, u.st.axes[p]? = some (some i) := by
    intro p hp
    rw [List.getElem?_eq_getElem hp]
    cases u.st.axes[p] with
    | none => exact .inl rfl
    | some i => exact .inr ⟨i, rfl⟩
  have fr : ∀ p, p ∈ u'.framed ↔ p ∈ u.framed ∧ ∃ i, u.st.axes[p]? = some (some i) := by
    intro p
    by_cases hp : p < u.st.axes.length
    · rw [(ppa_clicks_toggle env u h bad p hp).1]
      have hc : bad.count p = if p ∈ bad then 1 else 0 := by
        split_ifs with hm
        · exact List.count_eq_one_of_mem hn hm
        · exact List.count_eq_zero_of_not_mem hm
      rw [hc]
      rcases title p hp with ht | ⟨i, ht⟩
      · by_cases hf : p ∈ u.framed
        · rw [if_pos ((hb p).mpr ⟨hf, ht⟩)]; simp [hf, ht]
        · rw [if_neg fun hh => hf ((hb p).mp hh).1]; simp [hf]
      · rw [if_neg fun hh => by simpa [ht] using ((hb p).mp hh).2]
        simp [ht]
    · constructor
      · intro hf
        exact absurd (hst ▸ ok.panels p ((ok.framed p).mp hf)) hp
      · rintro ⟨hf, -⟩
        exact absurd (h.panels p ((h.framed p).mp hf)) hp
  have pr := (ppa_press env u' ok r).2 fun p hp => by rw [hst]; exact ((fr p).mp hp).2
  refine ⟨hst, fr, pr.1, ?_⟩
  rw [pr.2.2, hst]

/-- C114: the window is a session of the assistant: the state after any clicks and presses is reached by presses with
given choices, so that what is proved about sessions (C47 - C49) holds for the window -/
theorem ppa_window (env : Env) (first : List ℕ → ℕ) (hfirst : ∀ l : List ℕ, l ≠ [] → first l ∈ l) (target : Bool)
    (l : List ℕ) (hs : (start env first target).2 = .ok l) (es : List Event) :
    Reachable env ((Ui.opened env first target).run env es).st := by
  suffices key : ∀ u : Ui, ∃ rs, (u.run env es).st = (session env u.st rs).2 by
    obtain ⟨rs, hrs⟩ := key (Ui.opened env first target)
    exact ⟨first, target, l, rs, hfirst, hs, hrs⟩
  induction es with
  | nil => intro u; exact ⟨[], rfl⟩
  | cons e es ih =>
    intro u
    obtain ⟨rs, hrs⟩ := ih (u.step env e)
    change ((u.step env e).run env es).st = _ at hrs
    have e0 : u.run env (e :: es) = (u.step env e).run env es := rfl
    cases e with
    | click p =>
      refine ⟨rs, ?_⟩
      rw [e0, hrs]
      change (session env (u.click p).st rs).2 = _
      rw [click_st]
    | carry r =>
      rw [e0, hrs]
      change ∃ rs', (session env (u.carry env r).st rs).2 = _
      unfold Ui.carry
      dsimp only
      cases ht : takeClicked env { r with clicked := u.clicked } u.st with
      | error e => exact ⟨rs, rfl⟩
      | ok mid => exact ⟨{ r with clicked := u.clicked } :: rs, rfl⟩

private theorem carryOn_axes (env : Env) (r : Round) (st : State) : (carryOn env r st).1.axes.length ≤ st.axes.length := by
  have hp : ∀ (a : List (Option ℕ)) d, (plotTitles a d).length = a.length := by
    intro a d
    simp only [plotTitles, List.length_append, List.length_take, List.length_map, List.length_drop]
    omega
  unfold carryOn
  cases ht : takeClicked env r st with
  | error e => exact le_rfl
  | ok mid =>
    have hm : mid.axes.length = st.axes.length := by
      rcases takeClicked_spec env r st mid ht with ⟨-, h⟩ | ⟨_, _, _, _, _, _, _, _, h⟩
      · rw [h]
      · rw [h]; simp
    have hk : (keepSampling env mid).1.axes = mid.axes := by
      unfold keepSampling
      cases mid.choices <;> rfl
    dsimp only
    split_ifs with h1
    · rw [hp, hm]
    · have hi : (initSubsamples env r.first (keepSampling env mid).1 false).1.axes = mid.axes := by
        unfold initSubsamples
        dsimp only
        split_ifs
        · exact hk
        · exact hk
        · exact hk
        · split <;> exact hk
      cases (initSubsamples env r.first (keepSampling env mid).1 false).2 with
      | error e => dsimp only; rw [hi, hm]
      | ok l =>
        dsimp only
        split_ifs
        · simp
        · rw [hp, hm]

/-- negation: once "return prior" has shown its result, the window has at most one panel for the rest of the session,
whatever is displayed: the other samples count as shown although nobody has seen them -/
theorem ppa_after_return (env : Env) (u : Ui) (active : Bool) (hu : 4 < u.st.selected.card) (rs : List Round) :
    (session env (u.returned active).st rs).2.axes.length ≤ 1 := by
  have h0 : (u.returned active).st.axes.length ≤ 1 := by
    unfold Ui.returned
    rw [if_pos hu]
    cases active <;> simp
  generalize (u.returned active).st = st at h0
  induction rs generalizing st with
  | nil => exact h0
  | cons r rs ih => exact ih _ ((carryOn_axes env r st).trans h0)

/-- choosing three panels, one of them twice -/
example : ∃ l, (start (plain 20) headOf false).2 = .ok l ∧
    let u := (Ui.opened (plain 20) headOf false).run (plain 20) ([4, 0, 4, 7].map .click)
    0 ∈ u.framed ∧ 7 ∈ u.framed ∧ 4 ∉ u.framed := by
  obtain ⟨l, h1, h2, -, -, -, h6⟩ := plain_start 20 (by norm_num)
  have hl : (Ui.opened (plain 20) headOf false).st.axes.length = 9 := by
    change (start (plain 20) headOf false).1.axes.length = 9
    rw [h6]; simp [h2]
  have hf : (Ui.opened (plain 20) headOf false).framed = ∅ := rfl
  have key := fun q hq => (ppa_clicks_toggle (plain 20) _ (ppa_frames_open (plain 20) headOf false) [4, 0, 4, 7] q hq).1
  refine ⟨l, h1, (key 0 (by omega)).mpr ?_, (key 7 (by omega)).mpr ?_, fun h => ?_⟩
  · rw [hf]; decide
  · rw [hf]; decide
  · have := (key 4 (by omega)).mp h
    rw [hf] at this
    revert this; decide

end Verif.Props
