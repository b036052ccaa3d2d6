import Verif.Basics
import Mathlib.Analysis.SpecialFunctions.Trigonometric.Basic

/-!
# Point and interval below a plot (internal/plot_helper.py:28-125)

`plot_pointinterval` and `_plot_sub_iterval`.  What the functions of the distribution or the sample return is a
parameter (`Shown`), and so are the settings.  A drawing is the list of the calls of `ax.plot`.
-/

namespace Verif.PointInterval
open Verif

/-- what is asked of the distribution or of the sample -/
structure Shown where
  /-- `ppf(levels)` or `np.quantile(sample, levels)` -/
  quantiles : List ℝ → List ℝ
  /-- `hdi(mass)` -/
  hdi : ℝ → ℝ × ℝ
  /-- `eti(mass)` -/
  eti : ℝ → ℝ × ℝ
  median : ℝ

/-- `stats.ci_kind` and `stats.ci_prob` -/
structure Settings where
  kind : String
  prob : ℝ

/-- a call of `ax.plot` -/
inductive Mark
  /-- a line between two points, with its width -/
  | line (p q : ℝ × ℝ) (width : ℝ)
  | dot (p : ℝ × ℝ)

/-- coordinates of a value on the axis -/
def place (rotated : Bool) (v : ℝ) : ℝ × ℝ := if rotated then (0, v) else (v, 0)

/-- plot_helper.py:111-125 after the two ends have been taken off -/
noncomputable def subInterval (rotated : Bool) (width lower upper : ℝ) : List Mark :=
  if lower < upper then [.line (place rotated lower) (place rotated upper) width]
  else
    [.line (place rotated lower) (place rotated Real.pi) width,
     .line (place rotated (-Real.pi)) (place rotated upper) width]

/-- plot_helper.py:54-96: the values that are drawn, from left to right -/
noncomputable def values (s : Shown) (rc : Settings) (interval : Option String) (levels : Option (List ℝ)) :
    Except Err (List ℝ) :=
  let kind := interval.getD rc.kind
  if kind = "quantiles" then
    match levels with
    | none => .ok (s.quantiles [0.05, 0.25, 0.5, 0.75, 0.95])
    | some l => if l.length ∈ [5, 3, 1, 0] then .ok (s.quantiles l) else .error .valueError
  else
    let l := levels.getD [0.5, rc.prob]
    if levels.isSome ∧ l.length ∉ [2, 1] then .error .valueError
    else
      let func : Except Err (ℝ → ℝ × ℝ) :=
        if kind = "eti" then .ok s.eti else if kind = "hdi" then .ok s.hdi else .error .nameError
      func.bind fun f =>
        match l.map f with
        | [a, b] => .ok [b.1, a.1, s.median, a.2, b.2]
        | [a] => .ok [a.1, s.median, a.2]
        | _ => .ok []

/-- plot_helper.py:98-108: `q_s.pop(0)` and `q_s.pop(-1)` take the ends off before each line -/
noncomputable def draw (rotated : Bool) : List ℝ → List Mark
  | [a, b, c, d, e] => subInterval rotated 1.5 a e ++ (subInterval rotated 4 b d ++ [.dot (place rotated c)])
  | [b, c, d] => subInterval rotated 4 b d ++ [.dot (place rotated c)]
  | [c] => [.dot (place rotated c)]
  | _ => []

/-- plot_helper.py:28-108 -/
noncomputable def pointInterval (s : Shown) (rc : Settings) (interval : Option String) (levels : Option (List ℝ))
    (rotated : Bool) : Except Err (List Mark) :=
  (values s rc interval levels).map (draw rotated)

end Verif.PointInterval
