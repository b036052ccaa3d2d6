import Verif.Spec.Law
import Verif.Model.MlFit
import Mathlib.Analysis.SpecialFunctions.Log.NegMulLog

/-!
# Counts with one parameter (C118)
-/

namespace Verif.Spec
open MeasureTheory Verif.Param

/-- the entropy of a distribution on the natural numbers -/
noncomputable def entropyPmf (f : ℕ → ℝ) : ℝ := ∑' k, -(f k * Real.log (f k))

/-- the law on the real line of a distribution on the natural numbers -/
noncomputable def ofNatPmf (f : ℕ → ℝ) : Measure ℝ := ofPmf fun k => if k < 0 then 0 else f k.toNat

inductive CountFam
  | poisson
  | geometric

/-- poisson.py:16, geometric.py:17 -/
noncomputable def CountFam.pmf : CountFam → ℝ → ℕ → ℝ
  | .poisson => poissonPmf
  | .geometric => geometricPmf

/-- poisson.py:36-37, geometric.py:37 -/
def CountFam.Ok : CountFam → ℝ → Prop
  | .poisson, v => 0 < v
  | .geometric, v => 0 < v ∧ v ≤ 1

/-- the smallest value -/
def CountFam.first : CountFam → ℕ
  | .poisson => 0
  | .geometric => 1

/-- the documented mean -/
noncomputable def CountFam.mean : CountFam → ℝ → ℝ
  | .poisson, v => v
  | .geometric, v => 1 / v

/-- the class -/
def CountFam.family : CountFam → Family
  | .poisson => .simple .poisson
  | .geometric => .simple .geometric

/-- the probability of the counts from `l` to `u` -/
noncomputable def countMass (f : ℕ → ℝ) (l u : ℕ) : ℝ := (ofNatPmf f).real (Set.Icc l u)

end Verif.Spec
