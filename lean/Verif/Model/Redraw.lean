import Verif.Basics
import Mathlib.Data.List.Sort
import Mathlib.Algebra.Order.Floor.Ring
import Mathlib.Data.Real.Archimedean

/-!
# What `predictive_explorer` draws, and draws again (ppls/agnostic.py:226-291, internal/plot_helper.py:507-547)

`stats_kwargs` is one dictionary, made when the explorer is opened (predictive_explorer.py:64-65) and passed to every
drawing, which adds entries to it.  Only the entries that the code sets itself are modelled, together with `ls`.
matplotlib is represented by what it checks: `ax.plot` rejects keywords of histograms and more than one colour, `ax.hist`
wants one colour per data set.
-/

namespace Verif.Redraw
open Verif

inductive Color
  /-- one colour, e.g. `"0.5"` -/
  | single
  /-- a list of so many colours -/
  | several (n : ℕ)

inductive Bins
  | auto
  | edges (e : List ℝ)

/-- `stats_kwargs` -/
structure Kw where
  alpha : Option ℝ := none
  color : Option Color := none
  bins : Option Bins := none
  density : Option Bool := none
  histtype : Option String := none
  ls : Option String := none

inductive Kind | hist | kde | ecdf

/-- a curve, given by its points, or the histogram of some values -/
inductive Shape
  | curve (pts : List (ℝ × ℝ))
  | bars (values : List ℝ) (bins : Bins)

/-- plot_helper.py:508-509 -/
noncomputable def withAlpha (iterations : ℕ) (k : Kw) : Kw :=
  { k with alpha := some (k.alpha.getD (max 0.01 (1 - iterations * 0.009))) }

/-- `np.arange(np.min(results), np.max(results) + 1.5) - 0.5` for integers -/
noncomputable def intBins (lo hi : ℤ) : Bins :=
  .edges ((List.range (hi + 2 - lo).toNat).map fun (i : ℕ) => (lo : ℝ) + i - 0.5)

/-- `np.min`, `np.max` over all values of an integer array; the values are kept as reals -/
noncomputable def lowest (vs : List ℝ) : ℤ := (vs.map fun v => ⌊v⌋).foldl min ((vs.map fun v => ⌊v⌋).headD 0)
noncomputable def highest (vs : List ℝ) : ℤ := (vs.map fun v => ⌊v⌋).foldl max ((vs.map fun v => ⌊v⌋).headD 0)

/-- plot_helper.py:512-523 -/
noncomputable def histKw (ints : Bool) (results : List (List ℝ)) (iterations : ℕ) (k : Kw) : Kw :=
  let bins := if ints then intBins (lowest results.flatten) (highest results.flatten) else .auto
  { k with
    bins := some (k.bins.getD bins)
    density := some (k.density.getD true)
    histtype := some (k.histtype.getD "step")
    color := some (k.color.getD (.several iterations)) }

/-- what `ax.hist` checks: one colour per data set -/
def colorsFit (n : ℕ) : Option Color → Bool
  | none => true
  | some .single => n = 1
  | some (.several m) => m = n

/-- what `ax.plot` checks of its keywords: AttributeError for those of histograms, ValueError for a list of colours -/
def plotChecks (k : Kw) : Except Err Unit :=
  if k.bins.isSome ∨ k.density.isSome ∨ k.histtype.isSome then .error .attributeError
  else match k.color with
    | some (.several _) => .error .valueError
    | _ => .ok ()

/-- `np.sort(r)` against `np.linspace(0, 1, len(r), endpoint=False)` -/
noncomputable def ecdfCurve (r : List ℝ) : List (ℝ × ℝ) :=
  (r.insertionSort (· ≤ ·)).mapIdx fun i x => (x, (i : ℝ) / r.length)

/-- plot_helper.py:507-547: what is drawn, last the pooled values, and the dictionary afterwards.  `results` is an array,
its rows are equally long; `kde` is the density estimate of arviz. -/
noncomputable def plotRepr (kde : List ℝ → List (ℝ × ℝ)) (kind : Kind) (ints : Bool) (results : List (List ℝ))
    (iterations : ℕ) (k : Kw) : Except Err (List Shape) × Kw :=
  let k := withAlpha iterations k
  match kind with
  | .hist =>
    if results = [] then (.error .indexError, k)
    else
      let k := histKw ints results iterations k
      if !colorsFit results.length k.color then (.error .valueError, k)
      else
        let b := k.bins.getD .auto
        (.ok (results.map (Shape.bars · b) ++ [.bars results.flatten b]), { k with color := none, ls := none })
  | .kde =>
    let k := { k with color := some (k.color.getD .single) }
    if results = [] then (.error .valueError, k)
    else match plotChecks k with
      | .error e => (.error e, k)
      | .ok _ => (.ok (results.map (fun r => .curve (kde r)) ++ [.curve (kde results.flatten)]), k)
  | .ecdf =>
    let k := { k with color := some (k.color.getD .single) }
    if results = [] then (.error .valueError, k)
    else match plotChecks k with
      | .error e => (.error e, k)
      | .ok _ => (.ok (results.map (fun r => .curve (ecdfCurve r)) ++ [.curve (ecdfCurve results.flatten)]), k)

/-- agnostic.py:254-259: results with a missing value are dropped; `runs` are the values returned by the user's
function -/
def keep (runs : List (List (Option ℝ))) : List (List ℝ) :=
  (runs.filter fun r => !(r.any Option.isNone)).map fun r => r.filterMap id

/-- one drawing by an explorer opened with `samples=iterations`: the chosen kind, whether the values are integers, and
the values returned by the user's function -/
structure Round where
  kind : Kind
  ints : Bool
  runs : List (List (Option ℝ))

/-- the drawings one after the other -/
noncomputable def session (kde : List ℝ → List (ℝ × ℝ)) (iterations : ℕ) :
    List Round → Kw → List (Except Err (List Shape))
  | [], _ => []
  | r :: rs, k =>
    let out := plotRepr kde r.kind r.ints (keep r.runs) iterations k
    out.1 :: session kde iterations rs out.2

/-! ## which variable is drawn for PyMC and Bambi models (agnostic.py:265-283) -/

/-- `idata[group][var_to_plot]`: the prior group holds the free variables, the predictive one the observed ones -/
def shownVariable (free observed : List String) (group : String) (varName : Option String) : Except Err String :=
  match varName, observed with
  | none, [] => .error .indexError
  | v, obs =>
    let name := v.getD (obs.headD "")
    let names := if group = "prior" then free else if group = "prior_predictive" then observed else []
    if name ∈ names then .ok name else .error .keyError

end Verif.Redraw
