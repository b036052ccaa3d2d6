import Verif.Model.Roulette

/-!
# A session with the roulette (unidimensional/roulette.py:58-113, 151-190, 203-242, 367-399)

The state of the object and of its widgets.  ipywidgets calls the observers of a widget whenever its value changes; a
number box with bounds moves a value outside them to the nearest bound (its upper bound is 100 unless given).  An exception
in an observer leaves the state as it is at that point.  The fit (`fit_to_epdf`, C28), which is given the text with extra
parameters (`process_extra`, C52) and may raise an error, is a parameter; the representation is kept as text.
-/

namespace Verif.Roulette
open Verif

/-- what surrounds the session: the fit (families, positions, probabilities, mean, standard deviation, axis, extra
parameters), the names of all continuous and discrete families -/
structure Env (D : Type) where
  fit : List String → List ℝ → List ℝ → ℝ → Option ℝ → ℝ → ℝ → String → Except Err (Option D)
  continuous : List String
  discrete : List String

/-- the lower axes -/
inductive Panel (D : Type)
  | empty
  | domainError
  | curve (d : D) (repr : String)

/-- `self.inputs` -/
structure Inputs where
  xs : List ℝ
  probs : List ℝ
  chips : ℤ
  xMin : ℝ
  xMax : ℝ
  nrows : ℕ
  ncols : ℕ

structure State (D : Type) where
  xMin : ℝ
  xMax : ℝ
  nrows : ℕ
  ncols : ℕ
  grid : Grid
  /-- values of the widgets -/
  wXMin : ℝ
  wXMax : ℝ
  wRows : ℕ
  wCols : ℕ
  repr : String
  options : List String
  selected : List String
  extra : String
  boxNone : Bool
  boxCont : Bool
  boxDisc : Bool
  dist : Option D
  inputs : Option Inputs
  panel : Panel D

/-- the bounds of the two number boxes (roulette.py:265-281) -/
def bounded (n : ℕ) : ℕ := min (max n 2) 100

/-- roulette.py:58-86 with the widgets of 244-365 -/
def open' {D : Type} (xMin xMax : ℝ) (nrows ncols : ℕ) (options defaults : List String) (extra : String) : State D :=
  { xMin, xMax, nrows, ncols, grid := fresh nrows ncols, wXMin := xMin, wXMax := xMax, wRows := bounded nrows,
    wCols := bounded ncols, repr := "pdf", options, selected := defaults, extra, boxNone := false, boxCont := false,
    boxDisc := false, dist := none, inputs := none, panel := .empty }

variable {D : Type}

/-- roulette.py:151-190, `_on_leave_fig`; the chips are those of the columns of `self._grid` -/
noncomputable def leave (env : Env D) (s : State D) : State D :=
  match weightsToPdf s.xMin s.xMax s.grid with
  | .error _ => s
  | .ok h =>
    let inputs := some ⟨h.xs, h.probs, (s.grid.counts.map Prod.snd).sum, s.xMin, s.xMax, s.nrows, s.ncols⟩
    if h.columns > 1 then
      if s.selected ≠ [] then
        match env.fit s.selected h.xs h.probs h.mean h.std s.xMin s.xMax s.extra with
        | .error _ => { s with panel := .empty }
        | .ok none => { s with panel := .domainError, inputs, dist := none }
        | .ok (some d) => { s with panel := .curve d s.repr, inputs, dist := some d }
      else { s with inputs, dist := none }
    else { s with panel := .empty, inputs, dist := none }

/-- roulette.py:372-377 with 203-214: all four values are read from the widgets and the grid is rebuilt -/
def updateGrid (s : State D) : State D :=
  { s with xMin := s.wXMin, xMax := s.wXMax, nrows := s.wRows, ncols := s.wCols, grid := fresh s.wRows s.wCols,
           panel := .empty }

/-- setting `w_distributions.value`: observers run when it changes -/
noncomputable def select (env : Env D) (names : List String) (s : State D) : State D :=
  if names = s.selected then s else leave env { s with selected := names }

/-- roulette.py:392-394 with 224-242.  Unticking a box runs the same observer again, before the first call goes on; `fuel`
bounds the nesting, three levels are enough (`handle_spec` holds for any number above that). -/
noncomputable def handle (env : Env D) : ℕ → State D → State D
  | 0, s => s
  | fuel + 1, s =>
    if s.boxNone then
      let s := if s.boxDisc then handle env fuel { s with boxDisc := false } else s
      let s := if s.boxCont then handle env fuel { s with boxCont := false } else s
      select env [] s
    else
      let names := (if s.boxCont then env.continuous.filter (· ∈ s.options) else [])
        ++ (if s.boxDisc then env.discrete.filter (· ∈ s.options) else [])
      select env names s

inductive Box | none | cont | disc

/-- what the user does -/
inductive Action
  /-- press and release a mouse button -/
  | click (p : Press)
  | setXMin (v : ℝ)
  | setXMax (v : ℝ)
  | setRows (n : ℕ)
  | setCols (n : ℕ)
  | setRepr (r : String)
  | setExtra (t : String)
  | choose (names : List String)
  | tick (b : Box)

/-- the observers of each widget (roulette.py:86, 367-390).  `x_min` has two: the grid is rebuilt, then `x_max` is moved
when both are equal, which rebuilds it again. -/
noncomputable def act (env : Env D) (s : State D) : Action → State D
  | .click p => leave env { s with grid := click s.grid p }
  | .setXMin v =>
    if v = s.wXMin then s
    else
      let s := updateGrid { s with wXMin := v }
      if v = s.wXMax then updateGrid { s with wXMax := v + 1 } else s
  | .setXMax v => if v = s.wXMax then s else updateGrid { s with wXMax := v }
  | .setRows n => if bounded n = s.wRows then s else updateGrid { s with wRows := bounded n }
  | .setCols n => if bounded n = s.wCols then s else updateGrid { s with wCols := bounded n }
  | .setRepr r => if r = s.repr then s else leave env { s with repr := r }
  | .setExtra t => if t = s.extra then s else leave env { s with extra := t }
  | .choose names => select env names s
  | .tick .none => handle env 3 { s with boxNone := !s.boxNone }
  | .tick .cont => handle env 3 { s with boxCont := !s.boxCont }
  | .tick .disc => handle env 3 { s with boxDisc := !s.boxDisc }

noncomputable def acts (env : Env D) (s : State D) (l : List Action) : State D := l.foldl (act env) s

end Verif.Roulette
