import Verif.Model.Hdi

/-!
# `find_hdi` (internal/optimization.py:280-295) on a discrete distribution, both branches

The sorting step `np.argsort(pmf)[::-1]` and `scipy.optimize.minimize` are parameters.
-/

namespace Verif.HdiLong
open Verif Verif.Modifier Verif.Interval Verif.Hdi

/-- optimization.py:290-293 with 317-344: the continuous optimiser started at the equal-tailed interval
(distributions.py:417-448, whose ends are integers here), its answer cut to integers -/
noncomputable def longHdi (minimize : Minimize) (b : Base) (mass : ℝ) : Except Err (ℤ × ℤ) := do
  let start ← eti b true true 0 none (some mass)
  let x := minimize intervalShort (intervalLoss (fun x => b.cdf x) 0 mass) (b.lo, b.hi) start
  let lower ← pyInt (x.1 : EReal)
  let upper ← pyInt (x.2 : EReal)
  return (lower, upper)

/-- optimization.py:280-295, `dist.kind == "discrete"` -/
noncomputable def findHdi (argsort : List (ℤ × ℝ) → List (ℤ × ℝ)) (minimize : Minimize) (b : Base)
    (mass : ℝ) : Except Err (ℤ × ℤ) := do
  let grid ← xvalsDiscrete b .full none
  if grid.length < 199 then discreteHdi mass (argsort (withMass (fun k => b.pdf k) grid))
  else longHdi minimize b mass

end Verif.HdiLong
