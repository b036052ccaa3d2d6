import Verif.Basics
import Mathlib.Analysis.SpecialFunctions.Pow.Real
import Mathlib.Analysis.SpecialFunctions.Trigonometric.Basic

/-!
# Moment matching for Rice (internal/optimization.py:199-236) and Weibull (internal/special.py:6-25)

The Bessel functions, the minimiser and the gamma function are parameters.  NaN is `none`.
-/

namespace Verif.RiceWeibull
open Verif

/-- `x ** 0.5` -/
noncomputable def root (x : ℝ) : Option ℝ := if x < 0 then none else some (Real.sqrt x)

/-- optimization.py:214-221 -/
noncomputable def xi (i0 i1 : ℝ → ℝ) (theta : ℝ) : ℝ :=
  2 + theta ^ 2 - Real.pi / 8 * Real.exp (-(theta ^ 2) / 2) *
    ((2 + theta ^ 2) * i0 (theta ^ 2 / 4) + theta ^ 2 * i1 (theta ^ 2 / 4)) ^ 2

/-- optimization.py:223-224 -/
noncomputable def fpf (i0 i1 : ℝ → ℝ) (ratio theta : ℝ) : Option ℝ :=
  root (xi i0 i1 theta * (1 + ratio ^ 2) - 2)

/-- optimization.py:226-228 -/
noncomputable def gap (i0 i1 : ℝ → ℝ) (ratio theta : ℝ) : Option ℝ :=
  (fpf i0 i1 ratio theta).map fun v => |v - theta|

/-- optimization.py:199-236: nu and sigma.  `minimize` gets the objective and the starting point; the
bounds are `(0, None)`.  The arguments are Python floats, so a zero deviation raises. -/
noncomputable def riceMoments (i0 i1 : ℝ → ℝ) (minimize : (ℝ → Option ℝ) → Option ℝ → ℝ)
    (mean stdDev : ℝ) : Except Err (Option ℝ × Option ℝ) :=
  if stdDev = 0 then .error .zeroDivision
  else
    let ratio := mean / stdDev
    if ratio < 1.913 then .ok (some eps, some (0.655 * stdDev))
    else
      let theta := minimize (gap i0 i1 ratio) (fpf i0 i1 ratio 1)
      let xiTheta := xi i0 i1 theta
      let sigma := (root xiTheta).map fun r => stdDev / r
      let nu := sigma.bind fun s => root (mean ^ 2 + (xiTheta - 2) * s ^ 2)
      .ok (nu, sigma)

/-- special.py:16-21 -/
noncomputable def garciaPoly (z : ℝ) : ℝ :=
  -0.221016417 + 0.010060668 * z + 0.117358987 * z ^ 2 + -0.050999126 * z ^ 3

/-- special.py:16-25 (compiled code: a division by zero raises) -/
noncomputable def garcia (gamma : ℝ → ℝ) (mean sigma : ℝ) : Except Err (ℝ × ℝ) :=
  if mean = 0 then .error .zeroDivision
  else
    let z := sigma / mean
    let den := z * (1 + (1 - z) ^ 2 * garciaPoly z)
    if den = 0 then .error .zeroDivision
    else
      let alpha := 1 / den
      let g := gamma (1 + 1 / alpha) / mean
      if g = 0 then .error .zeroDivision else .ok (alpha, 1 / g)

end Verif.RiceWeibull
