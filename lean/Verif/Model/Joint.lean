import Verif.Model.Multivariate
import Verif.Model.Contours
import Mathlib.Algebra.Order.Floor.Defs

/-!
# The joint densities that are drawn: Dirichlet of dimension three and MvNormal of dimension two

internal/plot_helper_multivariate.py:21-94 and 212-225.
-/

namespace Verif.Joint
open Verif Verif.Multivariate Verif.Contours

/-- plot_helper_multivariate.py:29-31; `gammaln` is the function of internal/special.py:51-69 -/
noncomputable def simplexCoef (gammaln : ℝ → ℝ) {n : ℕ} (alpha : Fin n → ℝ) : ℝ :=
  Real.exp (gammaln (∑ i, alpha i) - ∑ i, gammaln (alpha i))

/-- plot_helper_multivariate.py:66-68 -/
noncomputable def simplexPdf (gammaln : ℝ → ℝ) {n : ℕ} (alpha x : Fin n → ℝ) : ℝ :=
  simplexCoef gammaln alpha * simplexKernel alpha x

/-- plot_helper_multivariate.py:39-43 at the points `pts` of the triangulation and 82-93 (no value is NaN: the coordinates
are at least `tol`) -/
noncomputable def drawSimplex (gammaln : ℝ → ℝ) (alpha : Fin 3 → ℝ) (pts : List (ℝ × ℝ)) : Except Err Drawn :=
  simplexPlot (pts.map fun p => simplexPdf gammaln alpha (xy2bc p 1e-3))

/-- plot_helper_multivariate.py:213-216: smallest and largest value on the axis of coordinate `i` -/
noncomputable def jointRange {n : ℕ} (mu : Fin n → ℝ) (cov : Matrix (Fin n) (Fin n) ℝ) (i : Fin n) : ℝ × ℝ :=
  (mu i - 3 * Real.sqrt (cov i i), mu i + 3 * Real.sqrt (cov i i))

/-- `np.mgrid[a:b:0.01]`: the values `a + 0.01 k` below `b` -/
noncomputable def mgrid (a b : ℝ) : List ℝ := (List.range ⌈(b - a) / 0.01⌉₊).map fun k : ℕ => a + 0.01 * k

/-- plot_helper_multivariate.py:212-225: the levels, with the grid; `contour` refuses (TypeError) a grid with fewer than two
values on an axis, and an empty array has no last entry (IndexError) -/
noncomputable def jointNormal (pdf : ℝ × ℝ → ℝ) (mu : Fin 2 → ℝ) (cov : Matrix (Fin 2) (Fin 2) ℝ) :
    Except Err (List ℝ × List ℝ × List ℝ) := do
  let x := mgrid (jointRange mu cov 0).1 (jointRange mu cov 0).2
  let y := mgrid (jointRange mu cov 1).1 (jointRange mu cov 1).2
  let levels ← hdiContours (x.flatMap fun a => y.map fun b => pdf (a, b)) [0.1, 0.5, 0.94]
  if x.length < 2 ∨ y.length < 2 then .error .typeError
  else return (x, y, levels)

end Verif.Joint
