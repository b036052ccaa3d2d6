import Verif.Model.Ppa

/-!
# The window of the prior predictive assistant (preliz/predictive/ppa.py:66-144, 353-404)

On top of `Ppa`: which panels the user has chosen by clicking, and which panels have a coloured frame.
-/

namespace Verif.Ppa

/-- `clicked` are positions of panels (ppa.py:169), `framed` the panels drawn with a thick orange frame -/
structure Ui where
  st : State
  clicked : List ℕ
  framed : Finset ℕ

/-- ppa.py:128-138; a click outside of all panels has no effect -/
def Ui.click (u : Ui) (p : ℕ) : Ui :=
  if p < u.st.axes.length then
    if p ∉ u.clicked then
      { u with clicked := u.clicked ++ [p], framed := u.framed ∪ (u.clicked ++ [p]).toFinset }
    else
      { u with clicked := u.clicked.erase p, framed := u.framed.erase p ∪ (u.clicked.erase p).toFinset }
  else u

/-- one press of "carry on" (ppa.py:353-386) with the panels chosen by clicking.  Reading a blank title stops it
before anything is changed (ppa.py:358); otherwise the frames are removed and the list is emptied (363-368), and
without anything left to show the figure is cleared (383). -/
noncomputable def Ui.carry (env : Env) (r : Round) (u : Ui) : Ui :=
  let r := { r with clicked := u.clicked }
  match takeClicked env r u.st with
  | .error _ => u
  | .ok _ =>
    let st := (carryOn env r u.st).1
    { st := st, clicked := [], framed := if st.axes = [] then ∅ else u.framed \ u.clicked.toFinset }

inductive Event
  | click (p : ℕ)
  | carry (r : Round)

noncomputable def Ui.step (env : Env) (u : Ui) : Event → Ui
  | .click p => u.click p
  | .carry r => u.carry env r

/-- the window when it opens (ppa.py:66-70) -/
noncomputable def Ui.opened (env : Env) (first : List ℕ → ℕ) (target : Bool) : Ui := ⟨(start env first target).1, [], ∅⟩

noncomputable def Ui.run (env : Env) (u : Ui) (es : List Event) : Ui := es.foldl (Ui.step env) u

/-- "return prior" (ppa.py:388-404) once the fit has succeeded, with no panel chosen: the panels are removed from
the figure; the text is drawn on new axes of the active figure, which is this one (`active`) or the other one -/
noncomputable def Ui.returned (u : Ui) (active : Bool) : Ui :=
  if 4 < u.st.selected.card then
    { u with st := { u.st with axes := if active then [none] else [] }, framed := ∅ }
  else u

end Verif.Ppa
