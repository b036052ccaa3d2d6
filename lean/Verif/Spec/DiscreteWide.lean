import Verif.Spec.Law
import Verif.Spec.Likelihood
import Mathlib.Analysis.SpecialFunctions.Log.NegMulLog

/-!
# Distributions on the integers: entropy and mass of a range (C127)
-/

namespace Verif.Spec
open MeasureTheory

/-- the entropy of a distribution on the integers -/
noncomputable def entropyZ (f : ℤ → ℝ) : ℝ := ∑' k, -(f k * Real.log (f k))

/-- the probability of the integers from `l` to `u` -/
noncomputable def intMass (f : ℤ → ℝ) (l u : ℤ) : ℝ := (ofPmf f).real (Set.Icc (l : ℝ) u)

/-- the parameters the optimiser proposes (the two ends before rounding) that give a distribution -/
def duGood : List ℝ → Prop
  | [x, y] => ⌊x⌋ ≤ ⌈y⌉
  | _ => False

/-- the ends of the distribution -/
noncomputable def duEnds : List ℝ → ℤ × ℤ
  | [x, y] => (⌊x⌋, ⌈y⌉)
  | _ => (0, 0)

/-- the probabilities of the distribution -/
noncomputable def duPmf (x : List ℝ) : ℤ → ℝ := discreteUniformPmf (duEnds x).1 (duEnds x).2

end Verif.Spec
