import Verif.Props.Overview
import Verif.Lemmas.PrintedP

/-!
# C113: the numbers of the table of a distribution
-/

namespace Verif.Props
open Verif Verif.Spec Verif.Overview Verif.WarnText

/-- what a cell shows -/
def CellShows : Answer → List Char → Prop
  | .real x, t => ∃ y, readNumber t = some y ∧ |y - x| ≤ |x| / 20
  | .posInf, t => t = "inf".toList
  | .negInf, t => t = "-inf".toList
  | .nan, t => t = "nan".toList
  | .array, _ => False
  | .raises _, _ => False

/-- answers that have a cell -/
def HasCell : Answer → Prop
  | .array => False
  | .raises _ => False
  | _ => True

private theorem cell_spec (a : Answer) (t : List Char) (h : cellText a = .ok t) : HasCell a ∧ CellShows a t ∧ Clean t := by
  cases a with
  | real x =>
    simp only [cellText, Except.ok.injEq] at h
    subst h
    obtain ⟨y, h1, h2⟩ := gFmt_read (p := 2) (by norm_num) x
    refine ⟨trivial, ⟨y, h1, h2.trans (by norm_num)⟩, ?_, ?_, ?_⟩
    · intro e; rw [e] at h1; simp [readNumber, readUnsigned, readMantissa, readNat] at h1
    · intro hc; exact absurd (gFmt_num 2 x _ hc) (by decide +kernel)
    · intro hc; exact absurd (gFmt_num 2 x _ hc) (by decide +kernel)
  | array => simp [cellText] at h
  | raises e => simp [cellText] at h
  | _ =>
    simp only [cellText, Except.ok.injEq] at h
    subst h
    exact ⟨trivial, rfl, by decide +kernel, by decide +kernel, by decide +kernel⟩

private theorem cell_ok (a : Answer) : (∃ t, cellText a = .ok t) ↔ HasCell a := by
  cases a <;> simp [cellText, HasCell]

/-- **C113**: a complete distribution shows its mean and its deviation, each within five percent, whenever they are single
numbers; otherwise the row is left out and the rest of the table is there. -/
theorem table_numbers (v : View) (m s : Answer) (hm : v.mean = cellText m) (hs : v.std = cellText s)
    (name : Clean v.obj.name) (kind : Clean v.kind) (names : ∀ n ∈ v.obj.names, '<' ∉ n ∧ '>' ∉ n) (lo : EndClean v.lo)
    (hi : EndClean v.hi) (ways : ∀ l, v.ways = some l → ∀ p ∈ l, ∀ n ∈ p, '<' ∉ n ∧ '>' ∉ n)
    (hf : v.obj.frozen = true) (t : List Char) (h : html v = .ok t) :
    WellFormed t ∧ ∃ before rowM rowS after, visible t = before ++ rowM ++ rowS ++ after ∧
      (HasCell m → ∃ c, rowM = ["Mean".toList, c] ∧ CellShows m c) ∧ (¬ HasCell m → rowM = []) ∧
      (HasCell s → ∃ c, rowS = ["Std".toList, c] ∧ CellShows s c) ∧ (¬ HasCell s → rowS = []) ∧
      before.getLast? ≠ none := by
  obtain ⟨hw, r, a, b, head, -, -, -, -, -, e⟩ := table_shows v
    ⟨name, kind, names, lo, hi, fun x hx => (cell_spec m x (hm ▸ hx)).2.2, fun x hx => (cell_spec s x (hs ▸ hx)).2.2, ways⟩ t h
  have key : ∀ (l : String) (x : Answer), (HasCell x → ∃ c, labelled l (cellText x) = [l.toList, c] ∧ CellShows x c) ∧
      (¬ HasCell x → labelled l (cellText x) = []) := by
    intro l x
    refine ⟨fun hx => ?_, fun hx => ?_⟩
    · obtain ⟨c, hc⟩ := (cell_ok x).2 hx
      exact ⟨c, by rw [hc]; rfl, (cell_spec x c hc).2.1⟩
    · rcases hc : cellText x with e | c
      · rfl
      · exact absurd ((cell_ok x).1 ⟨c, hc⟩) hx
  rw [hf, if_pos rfl, hm, hs, ← List.append_assoc (_ ++ _) (labelled _ _)] at e
  exact ⟨hw, _, _, _, _, e, (key "Mean" m).1, (key "Mean" m).2, (key "Std" s).1, (key "Std" s).2, by simp⟩

/-- a Cauchy distribution has no mean: its table exists and says nan -/
example : ∃ v t, v.mean = cellText .nan ∧ v.std = cellText .nan ∧ v.obj.frozen = true ∧ html v = .ok t ∧ HasCell .nan ∧
    CellShows .nan "nan".toList := by
  obtain ⟨t, h⟩ := (table_exists_iff ⟨⟨"Cauchy".toList, ["alpha".toList, "beta".toList], [.num (.real 0), .num (.real 1)], true⟩,
    "continuous".toList, .negInf, .posInf, cellText .nan, cellText .nan, none⟩).2
    ⟨by simp [Printed.repr, Printed.description, Printed.item, bind, Except.bind, pure, Except.pure], by simp, by simp⟩
  exact ⟨_, t, rfl, rfl, rfl, h, trivial, rfl⟩

end Verif.Props
