import Verif.Spec.HalfScale

/-!
# Distributions with a location and a scale, one of them given (C130)
-/

namespace Verif.Spec
open MeasureTheory Verif.Param

/-- normal.py, laplace.py, logistic.py, studentt.py: `mu`; cauchy.py: `alpha` -/
def PeakFam.locName : PeakFam → String
  | .cauchy => "alpha"
  | _ => "mu"

/-- normal.py, studentt.py: `sigma`; laplace.py: `b`; logistic.py: `s`; cauchy.py: `beta` -/
def PeakFam.scaleName : PeakFam → String
  | .laplace => "b"
  | .logistic => "s"
  | .cauchy => "beta"
  | _ => "sigma"

/-- the arguments with one more given -/
noncomputable def PeakFam.with (F : PeakFam) (name : String) (v : ℝ) : Kw :=
  fun k => if k = name then some v else F.given k

/-- what maxent does with one free parameter, in terms of its value `v`, the mass `mass v` it gives the interval and the entropy
`ent v`: the run it takes passes the check if any does, has the largest entropy of those that pass and is the first of those
with that entropy; if none passes it is the first. -/
def Takes (mass ent : ℝ → ℝ) (p : ℝ) (ends : List ℝ) (v : ℝ) : Prop :=
  ∃ i, ends[i]? = some v ∧
    ((∃ v' ∈ ends, |mass v' - p| < 1 / 10000) → |mass v - p| < 1 / 10000 ∧
      (∀ v' ∈ ends, |mass v' - p| < 1 / 10000 → ent v' ≤ ent v) ∧
      ∀ j v', j < i → ends[j]? = some v' → |mass v' - p| < 1 / 10000 → ent v' < ent v) ∧
    ((∀ v' ∈ ends, 1 / 10000 ≤ |mass v' - p|) → i = 0)

end Verif.Spec
