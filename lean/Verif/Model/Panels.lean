import Verif.Model.PlotCall
import Verif.Model.Contours
import Mathlib.Analysis.SpecialFunctions.Pow.Real

/-!
# Panels, labels and references

internal/plot_helper_multivariate.py:99-209 and 260-367, internal/plot_helper.py:307-331, 550-650 and 718-733,
distributions/distributions.py:354-385.  Axes are numbered in the order of `axes.flatten()`.
-/

namespace Verif.Panels
open Verif

/-! ## Dirichlet and MvNormal -/

/-- the argument `axes`: `None`, one Axes, a sequence of that many -/
inductive AxesArg
  | none
  | single
  | several (n : ℕ)

/-- what was drawn (coordinate, axes), what was removed, whether the joint density was drawn, whether there is a title, and
the exception at the end -/
structure Out where
  drawn : List (ℕ × ℕ)
  removed : List ℕ
  joint : Bool
  titled : Bool
  err : Option Err

/-- plot_helper_multivariate.py:131-135: the axes beyond the dimension are removed, `zip` pairs the rest -/
def drawOn (dim n : ℕ) : Out :=
  ⟨(List.range dim).zip (List.range n), if dim < n then (List.range n).drop dim else [], false, false, none⟩

/-- plot_helper_multivariate.py:113-209 (`jointDim = 3`) and 274-367 (`jointDim = 2`).  `fig` is defined only if the axes
are made here, so that a title with axes given is an UnboundLocalError (a NameError); `plt.subplots(1, 1)` returns one Axes,
which has no `flatten`; `plt.subplots(1, 0)` is a ValueError.  `ok`: the density is not zero on the whole triangulation
(true for MvNormal). -/
def panels (jointDim dim : ℕ) (marginals : Bool) (axes : AxesArg) (title ok : Bool) : Out :=
  if marginals then
    match axes with
    | .none =>
      let n := (Contours.colsRows dim).1 * (Contours.colsRows dim).2
      if n = 0 then ⟨[], [], false, false, some .valueError⟩
      else if n = 1 then ⟨[], [], false, false, some .attributeError⟩
      else { drawOn dim n with titled := title }
    | .single => ⟨[], [], false, false, some .typeError⟩
    | .several n => { drawOn dim n with err := if title then some .nameError else none }
  else if dim = jointDim then
    if ok then
      match axes with
      | .several _ => ⟨[], [], false, false, some .attributeError⟩
      | _ => ⟨[], [], true, title, none⟩
    else ⟨[], [], false, false, none⟩
  else ⟨[], [], false, false, some .valueError⟩

/-- the keywords with which a marginal is drawn, besides `legend=False`: plot_helper_multivariate.py:147-192, 308-353 -/
def marginalArgs : PlotCall.Kind → List String
  | .pdf => ["pointinterval", "interval", "levels", "support", "baseline", "ax"]
  | .cdf => ["pointinterval", "interval", "levels", "support", "ax"]
  | .ppf => ["pointinterval", "interval", "levels", "ax"]
  | .sf => ["pointinterval", "interval", "levels", "support", "ax"]
  | .isf => ["pointinterval", "interval", "levels", "ax"]

/-- the drawing of one marginal; `off` is `False` -/
def drawMarginal {α : Type} (k : PlotCall.Kind) (value : String → α) (off : α) :
    Except Err (PlotCall.Drawn α) :=
  PlotCall.callMethod .univariate k ((marginalArgs k).map (fun n => (n, value n)) ++ [("legend", off)])

/-! ## Labels -/

structure Stats where
  mean : ℝ
  std : ℝ
  var : ℝ
  skewness : ℝ
  kurtosis : ℝ

/-- distributions.py:369-383: one letter -/
def momentOf (st : Stats) (t : Char) : Except Err ℝ :=
  if t ∉ ['m', 'd', 'v', 's', 'k'] then .error .valueError
  else if t = 'm' then .ok st.mean
  else if t = 'd' then .ok st.std
  else if t = 'v' then .ok st.var
  else if t = 's' then .ok st.skewness
  else .ok st.kurtosis

/-- distributions.py:354-385 -/
def moments (st : Stats) (types : List Char) : Except Err (List ℝ) := types.mapM (momentOf st)

/-- plot_helper.py:315-321 -/
def momentName (t : Char) : Except Err String :=
  if t = 'm' then .ok "μ" else if t = 'd' then .ok "σ" else if t = 's' then .ok "γ" else if t = 'v' then .ok "σ²"
  else if t = 'k' then .ok "κ" else .error .keyError

/-- plot_helper.py:322-329: `seen` are the letters met before -/
def momentItems (fmt : ℝ → String) : List Char → List (Char × ℝ) → Except Err (List String)
  | _, [] => .ok []
  | seen, (t, v) :: r => do
    if t ∈ seen then momentItems fmt (t :: seen) r
    else
      let n ← momentName t
      let rest ← momentItems fmt (t :: seen) r
      return (n ++ "=" ++ fmt v) :: rest

/-- plot_helper.py:314-331; `fmt` is the format ".3g" -/
def getMoments (fmt : ℝ → String) (st : Stats) (types : List Char) : Except Err String := do
  let values ← moments st types
  let items ← momentItems fmt [] (types.zip values)
  return "\n" ++ String.intercalate ", " items

/-- `None`, a string, anything else (`True`, `False`) -/
inductive Legend
  | none
  | str (s : String)
  | other

/-- label of the curve, title of the axes, whether there is a legend -/
structure Label where
  label : Option String
  title : Option String
  box : Bool

/-- plot_helper.py:718-733 and, for the legend, 307-311 -/
def setLabel (fmt : ℝ → String) (repr : String) (st : Stats) (legend : Legend) (types : Option (List Char)) :
    Except Err Label :=
  let full : Except Err String := match types with
    | .none => .ok repr
    | some t => do
      let m ← getMoments fmt st t
      return repr ++ m
  match legend with
  | .none => .ok ⟨none, none, false⟩
  | .str s =>
    if s = "title" then do
      let l ← full
      return ⟨none, some l, false⟩
    else if s = "legend" then do
      let l ← full
      return ⟨some l, none, true⟩
    else .ok ⟨some s, none, true⟩
  | .other => do
    let l ← full
    return ⟨some l, none, false⟩

/-! ## Predictive panels -/

/-- plot_helper.py:551: the side of the square of panels -/
noncomputable def side (n : ℕ) : ℕ := ⌈(n : ℝ) ^ (1 / 2 : ℝ)⌉₊

/-- plot_helper.py:550-569: panels and samples; `fig` is the number of axes of the figure given, if any.  `plt.subplots(0, 0)`
is a ValueError. -/
noncomputable def ppPanels (fig : Option ℕ) (idxs : List ℕ) : Except Err (List (ℕ × ℕ)) :=
  match fig with
  | some n => .ok ((List.range n).zip idxs)
  | none => if side idxs.length = 0 then .error .valueError
      else .ok ((List.range (side idxs.length * side idxs.length)).zip idxs)

/-- plot_helper.py:567, 585-588, 593-595: the limits shared by all panels, from those of each; `none` without any -/
noncomputable def sharedLimits : List (ℝ × ℝ) → Option (ℤ × ℤ)
  | [] => none
  | p :: r =>
    let l := r.foldl (fun (a : ℝ × ℝ) q => (min q.1 a.1, max q.2 a.2)) p
    some (⌊l.1⌋, ⌈l.2⌉)

/-- plot_helper.py:612-615: `np.any(selected)` -/
def pooled (samples : List (List ℝ)) (selected : List ℕ) : Except Err (List ℝ) :=
  if selected.any (· ≠ 0) then
    if selected.all (· < samples.length) then .ok (selected.flatMap fun i => samples.getD i [])
    else .error .indexError
  else .ok samples.flatten

/-- references: `None`, a Python number, an integer of numpy, a sequence, a dictionary -/
inductive Refs
  | none
  | num (v : ℝ)
  | npInt (v : ℤ)
  | list (l : List ℝ)
  | dict (d : List (String × ℝ))

/-- plot_helper.py:639-650: the vertical lines and the labels with their positions; iteration over a numpy integer is a
TypeError -/
def references : Refs → Except Err (List ℝ × List (String × ℝ))
  | .none => .ok ([], [])
  | .num v => .ok ([v], [])
  | .npInt _ => .error .typeError
  | .list l => .ok (l, [])
  | .dict d => .ok (d.map Prod.snd, d)

end Verif.Panels
