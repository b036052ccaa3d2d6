import Verif.Basics
import Mathlib.Analysis.SpecialFunctions.Log.Base
import Mathlib.Algebra.Order.Floor.Ring
import Mathlib.Data.Real.Archimedean

/-!
# Slider ranges (preliz/internal/plot_helper.py:355-370)

`round x d` is Python's rounding to `d` decimals, an arbitrary function here: how ties and binary fractions
are resolved does not matter below.
-/

namespace Verif.Slider

/-- plot_helper.py:355-370 `generate_range`: smallest value, largest value, step.  `none` is an infinite end
of the support. -/
noncomputable def generateRange (round : ℝ → ℤ → ℝ) (value : ℝ) (lower upper : Option ℝ) : ℝ × ℝ × ℝ :=
  if value = 0 then (-10, 10, 0.1)
  else
    let power : ℤ := ⌊Real.logb 10 |value|⌋
    let orderOfMagnitude : ℝ := (10 : ℝ) ^ power
    let decimalPlaces : ℤ := -power
    let std := orderOfMagnitude * 10 - orderOfMagnitude / 10
    let minV := round (value - std) decimalPlaces
    let maxV := round (value + std) decimalPlaces
    (lower.getD minV, upper.getD maxV, orderOfMagnitude / 10)

end Verif.Slider
