import Verif.Model.PointInterval
import Verif.Model.Panels

/-!
# The plots made by `maxent`, `quartile`, `mle`, `combine`, `match_moments`, `match_quantiles`, `dirichlet_mode`

unidimensional/maxent.py:105-106, 121-122, 166-175, quartile.py:97-101, 139-148, mle.py:93-99, combine.py:80-82,
matching.py:86-90, 140-146, 228-232, 261-267, multidimensional/dirichlet_mode.py:48-49, 62-63, 81-84,
distributions/distributions.py:663-724 and internal/plot_helper.py:128-198, 297-304, 718-733.

Of matplotlib there are the axes, the lines on each of them in the order of drawing, and the axes that are active.  The
distribution has scalar parameters (it has just been fitted).  Titles and legends: `Panels`.
-/

namespace Verif.ElicitPlot
open Verif

variable {C : Type}

/-- colours: asked for, taken from the colour cycle of matplotlib, "0.8", "k", "w" -/
inductive Colour (C : Type)
  | given (c : C)
  | cycle (k : ℕ)
  | grey
  | black
  | white

inductive What
  | curve | markers | baseline | interval | point | bounds
  deriving DecidableEq

structure Line (C : Type) where
  what : What
  colour : Colour C

/-- lines of all axes, and the axes of the active figure (`none`: there is no figure) -/
structure World (C : Type) where
  axes : List (List (Line C))
  active : Option ℕ

def World.linesOf (w : World C) (a : ℕ) : List (Line C) := w.axes.getD a []

def World.add (w : World C) (a : ℕ) (ls : List (Line C)) : World C :=
  { w with axes := w.axes.modify a (· ++ ls) }

/-- plot_helper.py:297-304 -/
def getAx (ax : Option ℕ) (w : World C) : ℕ × World C :=
  match ax with
  | some a => (a, w)
  | none => match w.active with
    | some a => (a, w)
    | none => (w.axes.length, ⟨w.axes ++ [[]], some w.axes.length⟩)

/-- one entry of the dictionary `plot_kwargs`: the keywords of `plot_pdf` and, last, the others, which matplotlib gets.  Of
`support` there is the name, `none` for a pair. -/
inductive Setting (C : Type)
  | moments (letters : Option (List Char))
  | pointinterval (b : Bool)
  | interval (kind : Option String)
  | levels (l : Option (List ℝ))
  | support (s : Option String)
  | baseline (b : Bool)
  | legend (l : Panels.Legend)
  | figsize
  | ax (a : Option ℕ)
  | color (c : C)
  | style (name : String)

def Setting.name : Setting C → String
  | .moments _ => "moments"
  | .pointinterval _ => "pointinterval"
  | .interval _ => "interval"
  | .levels _ => "levels"
  | .support _ => "support"
  | .baseline _ => "baseline"
  | .legend _ => "legend"
  | .figsize => "figsize"
  | .ax _ => "ax"
  | .color _ => "color"
  | .style n => n

/-- the argument `moments`: `None`, a string, a dictionary (of which the keys are read) -/
inductive MomArg
  | none
  | letters (l : List Char)
  | dict (keys : List String)

/-- the arguments of `plot_pdf` -/
structure Opts (C : Type) where
  moments : MomArg
  pointinterval : Bool
  interval : Option String
  levels : Option (List ℝ)
  support : Option String
  baseline : Bool
  legend : Panels.Legend
  ax : Option ℕ
  color : Option C

/-- distributions.py:663-675 -/
def Opts.default : Opts C := ⟨.none, false, none, none, some "restricted", true, .str "legend", none, none⟩

def Opts.set (o : Opts C) : Setting C → Opts C
  | .moments .none => { o with moments := .none }
  | .moments (some l) => { o with moments := .letters l }
  | .pointinterval b => { o with pointinterval := b }
  | .interval k => { o with interval := k }
  | .levels l => { o with levels := l }
  | .support s => { o with support := s }
  | .baseline b => { o with baseline := b }
  | .legend l => { o with legend := l }
  | .figsize => o
  | .ax a => { o with ax := a }
  | .color c => { o with color := some c }
  | .style _ => o

/-- the arguments of a call `plot_pdf(**kw)` -/
def options (kw : List (Setting C)) : Opts C := kw.foldl Opts.set Opts.default

/-- what is needed of a distribution -/
structure Dist where
  discrete : Bool
  cls : String
  shown : PointInterval.Shown

/-- settings and the choice of matplotlib's colour cycle, given the lines that are there -/
structure Env (C : Type) where
  rc : PointInterval.Settings
  showPlot : Bool
  pick : List (Line C) → ℕ

/-- `t in "mdvsk"`: a piece of the string -/
def letters : List Char := ['m', 'd', 'v', 's', 'k']

/-- distributions.py:368-385 and plot_helper.py:324-329 for a dictionary: its keys are taken for letters; a key that is no
piece of "mdvsk" is a ValueError; only single letters have a value, and a value that falls to another key is a KeyError -/
def keyCheck (keys : List String) : Except Err Unit :=
  if keys.any (fun k => ¬ k.toList <:+: letters) then .error .valueError
  else if (keys.take (keys.countP fun k => k.toList.length = 1)).any (fun k => k.toList.length ≠ 1) then .error .keyError
  else .ok ()

/-- plot_helper.py:718-733: whether the label can be made -/
def labelCheck (legend : Panels.Legend) (m : MomArg) : Except Err Unit :=
  let full : Except Err Unit := match m with
    | .none => .ok ()
    | .letters l => if l.all (· ∈ letters) then .ok () else .error .valueError
    | .dict keys => keyCheck keys
  match legend with
  | .none => .ok ()
  | .str s => if s = "title" ∨ s = "legend" then full else .ok ()
  | .other => full

/-- plot_helper.py:146-191: the lines of the density or mass function -/
def mainLines (d : Dist) (baseline : Bool) (c : Colour C) : List (Line C) :=
  let base : List (Line C) := if baseline then [⟨.baseline, .grey⟩] else []
  if d.discrete then
    (if d.cls = "Categorical" ∨ d.cls = "Bernoulli" then [⟨.curve, c⟩] else [⟨.curve, c⟩, ⟨.markers, c⟩]) ++ base
  else base ++ [⟨.curve, c⟩]

/-- plot_helper.py:108, 117, 124-125: the colours of `plot_pointinterval` -/
def markLine : PointInterval.Mark → Line C
  | .line _ _ _ => ⟨.interval, .black⟩
  | .dot _ => ⟨.point, .white⟩

/-- plot_helper.py:161, 175, 185-186: the colour asked for, else one chosen by matplotlib -/
def curveColour (e : Env C) (o : Opts C) (lines : List (Line C)) : Colour C :=
  match o.color with
  | some c => .given c
  | none => .cycle (e.pick lines)

/-- distributions.py:711-724 with plot_helper.py:128-198: the axes it returns, and what has been drawn, also after an
error -/
noncomputable def plotPdf (e : Env C) (d : Dist) (o : Opts C) (w : World C) : World C × Except Err ℕ :=
  let (a, w) := getAx o.ax w
  match labelCheck o.legend o.moments with
  | .error err => (w, .error err)
  | .ok () =>
    if o.support.any (fun s => s ≠ "full" ∧ s ≠ "restricted") then (w, .error .valueError)
    else
      let w := w.add a (mainLines d o.baseline (curveColour e o (w.linesOf a)))
      if o.pointinterval then
        match PointInterval.pointInterval d.shown e.rc o.interval o.levels false with
        | .error err => (w, .error err)
        | .ok ms => (w.add a (ms.map markLine), .ok a)
      else (w, .ok a)

/-! ## maxent and quartile -/

/-- `plot_kwargs.get("pointinterval")` -/
def wantsInterval (kw : List (Setting C)) : Bool := (options kw).pointinterval

/-- maxent.py:168-172, quartile.py:141-145: the points at the bounds or quartiles -/
def addBounds (kw : List (Setting C)) (a : ℕ) (w : World C) : World C × Except Err ℕ :=
  let cid := if wantsInterval kw then 4 else 1
  match (w.linesOf a).reverse[cid - 1]? with
  | none => (w, .error .indexError)
  | some l => (w.add a [⟨.bounds, l.colour⟩], .ok a)

/-- maxent.py:105-106, 121-122, 166-175 and quartile.py:97-101, 139-148: the axes returned besides the distribution, if
any.  The argument `ax` is there and not used. -/
noncomputable def elicitPlot (e : Env C) (d : Dist) (plot : Option Bool) (plotKwargs : Option (List (Setting C)))
    (_ax : Option ℕ) (w : World C) : World C × Except Err (Option ℕ) :=
  let kw := plotKwargs.getD []
  if plot.getD e.showPlot then
    match plotPdf e d (options kw) w with
    | (w, .error err) => (w, .error err)
    | (w, .ok a) => ((addBounds kw a w).1, (addBounds kw a w).2.map some)
  else (w, .ok none)

/-! ## mle and combine -/

/-- mle.py:97: `dist.plot_pdf(plot_kwargs)`, by position -/
def positional (plotKwargs : Option (List (Setting C))) : Opts C :=
  { Opts.default with moments := match plotKwargs with
      | none => .none
      | some kw => .dict (kw.map Setting.name) }

/-- mle.py:93-99: `chosen` are the distributions that are drawn (`MleTop.mle`); the axes returned -/
noncomputable def mleLoop (e : Env C) (plotKwargs : Option (List (Setting C))) :
    List Dist → Option ℕ → World C → World C × Except Err (Option ℕ)
  | [], ax, w => (w, .ok ax)
  | d :: ds, _, w =>
    match plotPdf e d (positional plotKwargs) w with
    | (w, .error err) => (w, .error err)
    | (w, .ok a) => mleLoop e plotKwargs ds (some a) w

/-- mle.py:93-99; `plot` is the number of distributions and `ranked` are all of them, best first, `none` for one that is not
frozen -/
noncomputable def mlePlot (e : Env C) (ranked : List (Option Dist)) (plot : ℕ) (plotKwargs : Option (List (Setting C)))
    (ax : Option ℕ) (w : World C) : World C × Except Err (Option ℕ) :=
  if e.showPlot then mleLoop e plotKwargs ((ranked.take plot).filterMap id) ax w else (w, .ok ax)

/-- combine.py:80-82 -/
noncomputable def combinePlot (e : Env C) (ranked : List (Option Dist)) (plot : ℕ) (plotKwargs : Option (List (Setting C)))
    (ax : Option ℕ) (w : World C) : World C × Except Err (Option ℕ) :=
  mlePlot e ranked plot plotKwargs ax w

/-! ## match_moments and match_quantiles -/

/-- `plot_pdf(ax=ax, **kw)`: a keyword given twice is a TypeError -/
noncomputable def plotPdfOn (e : Env C) (d : Dist) (ax : Option ℕ) (kw : List (Setting C)) (w : World C) :
    World C × Except Err ℕ :=
  if kw.any (fun s => s.name = "ax") then (w, .error .typeError)
  else plotPdf e d (options (.ax ax :: kw)) w

/-- matching.py:140-146, 261-267; `source` is `from_dist`, `none` for data.  The axes returned besides the distribution:
`none` if there was no plot, `some none` for `None`. -/
noncomputable def matchPlot (e : Env C) (source : Option Dist) (target : Dist) (plot : Option Bool)
    (plotKwargs : Option (List (Setting C))) (ax : Option ℕ) (w : World C) :
    World C × Except Err (Option (Option ℕ)) :=
  let kw := plotKwargs.getD []
  if plot.getD e.showPlot then
    let first : World C × Except Err (Option ℕ) := match source with
      | none => (w, .ok ax)
      | some d => ((plotPdf e d (options kw) w).1, (plotPdf e d (options kw) w).2.map some)
    match first with
    | (w, .error err) => (w, .error err)
    | (w, .ok ax) =>
      match plotPdfOn e target ax kw w with
      | (w, .error err) => (w, .error err)
      | (w, .ok _) => (w, .ok (some ax))
  else (w, .ok none)

/-! ## dirichlet_mode -/

/-- dirichlet_mode.py:81-82: the call of the drawing function, `none` without a plot; `kw` is `plot_kwargs` -/
def dirichletPlot {α : Type} (showPlot : Bool) (plot : Option Bool) (kw : List (String × α)) (ax : α) :
    Except Err (Option (PlotCall.Drawn α)) :=
  if plot.getD showPlot then (PlotCall.callMethod .dirichlet .pdf (kw ++ [("ax", ax)])).map some else .ok none

end Verif.ElicitPlot
