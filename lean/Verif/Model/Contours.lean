import Verif.Basics
import Mathlib.Data.List.Sort
import Mathlib.Analysis.SpecialFunctions.Sqrt

/-!
# Contour levels, grids of panels and barycentric coordinates of the multivariate plots

internal/plot_helper_multivariate.py
-/

namespace Verif.Contours
open Verif

/-- plot_helper_multivariate.py:12-18 -/
def colsRows (n : ℕ) : ℕ × ℕ := if n ≤ 3 then (1, n) else (3, (n + 2) / 3)

/-! ## find_hdi_contours, plot_helper_multivariate.py:228-257 -/

/-- `np.sort(density, axis=None)[::-1]` -/
noncomputable def sortedDensity (d : List ℝ) : List ℝ := d.insertionSort (· ≥ ·)

/-- entry `i` of `csd` after the division; NaN (`none`) if the total is zero -/
noncomputable def csd (s : List ℝ) (i : ℕ) : Option ℝ :=
  if s.sum = 0 then none else some ((s.take (i + 1)).sum / s.sum)

/-- `csd <= hdi_prob` at position `i` (a comparison with NaN is false) -/
noncomputable def kept (s : List ℝ) (p : ℝ) (i : ℕ) : Prop :=
  match csd s i with
  | none => False
  | some c => c ≤ p

open Classical in
/-- lines 250-254: the last kept entry, the first entry if none is kept -/
noncomputable def level (s : List ℝ) (p : ℝ) : ℝ :=
  match ((List.range s.length).filter fun i => kept s p i).getLast? with
  | some i => s.getD i 0
  | none => s.headD 0

/-- the levels in increasing order; `csd[-1]` of an empty array raises IndexError -/
noncomputable def hdiContours (d ps : List ℝ) : Except Err (List ℝ) :=
  if d = [] then .error .indexError
  else .ok ((ps.map (level (sortedDensity d))).insertionSort (· ≤ ·))

/-! ## barycentric coordinates, plot_helper_multivariate.py:33-36 and 52-64 -/

/-- points of the plane -/
noncomputable def corner : Fin 3 → ℝ × ℝ := ![(0, 0), (1, 0), (0.5, Real.sqrt 0.75)]

noncomputable def sideMid (i : Fin 3) : ℝ × ℝ :=
  (((corner (i + 1)).1 + (corner (i + 2)).1) / 2, ((corner (i + 1)).2 + (corner (i + 2)).2) / 2)

/-- before the clipping -/
noncomputable def bary (q : ℝ × ℝ) (i : Fin 3) : ℝ :=
  (((corner i).1 - (sideMid i).1) * (q.1 - (sideMid i).1) +
    ((corner i).2 - (sideMid i).2) * (q.2 - (sideMid i).2)) / 0.75

/-- `np.clip(bsc, tol, 1.0 - tol)` -/
noncomputable def xy2bc (q : ℝ × ℝ) (tol : ℝ) (i : Fin 3) : ℝ := min (1 - tol) (max (bary q i) tol)

/-- what `DirichletOnSimplex.plot` draws: plot_helper_multivariate.py:82-93 -/
inductive Drawn
  | filled
  | lines (levels : List ℝ)

noncomputable def simplexPlot (pvals : List ℝ) : Except Err Drawn := do
  let levels ← hdiContours pvals [0.1, 0.5, 0.94]
  return if levels.all fun l => l = levels.headD 0 then .filled else .lines levels

end Verif.Contours
