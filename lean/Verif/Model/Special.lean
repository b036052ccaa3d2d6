import Mathlib.Analysis.SpecialFunctions.Pow.Real
import Mathlib.Analysis.SpecialFunctions.Trigonometric.Basic
import Mathlib.Analysis.SpecialFunctions.Sqrt

/-!
# The Gamma function and its logarithm as they are computed

internal/special.py:28-69, for positive arguments and in exact arithmetic.  In floats the power in `gamma` overflows for
arguments from about 143 on: `gammaFinite`.
-/

namespace Verif.Special

/-- special.py:30-39 -/
noncomputable def gammaCoef : List ℝ :=
  [676.5203681218851, -1259.1392167224028, 771.32342877765313, -176.61502916214059, 12.507343278686905,
    -0.13857109526572012, 9.9843695780195716e-6, 1.5056327351493116e-7]

/-- special.py:42-44, with the `z` of line 41 -/
noncomputable def gammaSeries (z : ℝ) : ℝ :=
  gammaCoef.zipIdx.foldl (fun x p => x + p.1 / (z + p.2 + 1)) 0.99999999999980993

/-- special.py:28-47 -/
noncomputable def gamma (z : ℝ) : ℝ :=
  let z := z - 1
  let x := gammaSeries z
  let t := z + 7.5
  Real.sqrt (2 * Real.pi) * t ^ (z + 0.5) * Real.exp (-t) * x

/-- special.py:28-47, `none` where the result is not a finite float.  The first product is the largest intermediate value: if
it overflows, the rest is multiplied with infinity (or is NaN).  Rounding next to the limit is not modelled. -/
noncomputable def gammaFinite (z : ℝ) : Option ℝ :=
  if Real.sqrt (2 * Real.pi) * (z - 1 + 7.5) ^ (z - 1 + 0.5) < 2 ^ 1024 then some (gamma z) else none

/-- special.py:52-59 -/
noncomputable def lnCoef : List ℝ :=
  [76.18009172947146, -86.50532032941677, 24.01409824083091, -1.231739572450155, 0.1208650973866179e-2,
    -0.5395239384953e-5]

/-- special.py:65-68: the pair of `x` and `ser` -/
noncomputable def lnSeries (x : ℝ) : ℝ × ℝ :=
  lnCoef.foldl (fun s c => (s.1 + 1, s.2 + c / (s.1 + 1))) (x, 1.000000000190015)

/-- special.py:50-69 -/
noncomputable def gammaln (x : ℝ) : ℝ :=
  let stp := 2.5066282746310005
  let fpf := 5.5
  let x := x - 1
  let tmp := x + fpf
  let tmp := (x + 0.5) * Real.log tmp - tmp
  tmp + Real.log (stp * (lnSeries x).2)

end Verif.Special
