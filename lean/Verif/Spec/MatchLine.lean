import Verif.Spec.MaxentHdi
import Verif.Spec.HalfScale

/-!
# Least-squares lines (C123)
-/

namespace Verif.Spec
open Verif.Param

/-- the average of a list -/
noncomputable def meanOf (l : List ℝ) : ℝ := l.sum / l.length

/-- the sum of the products of the deviations from the averages -/
noncomputable def spread (z t : List ℝ) : ℝ := (List.zipWith (fun a b => (a - meanOf z) * (b - meanOf t)) z t).sum

/-- the slope of the least-squares line through the points with abscissas `z` and ordinates `t` -/
noncomputable def lineSlope (z t : List ℝ) : ℝ := spread z t / spread z z

/-- the slope of the least-squares line through the origin -/
noncomputable def lineSlope0 (z t : List ℝ) : ℝ :=
  (List.zipWith (fun a b => a * b) z t).sum / (z.map fun a => a ^ 2).sum

/-- gumbel.py:60, moyal.py:62, asymmetric_laplace.py:77, skewnormal.py:83, skew_studentt.py:87 -/
noncomputable def ShiftFam.box : ShiftFam → Box
  | .peak F => F.box
  | .asymmetricLaplace _ => [((eps : ℝ), ⊤), (⊥, ⊤), ((eps : ℝ), ⊤)]
  | .skewNormal _ => [(⊥, ⊤), ((eps : ℝ), ⊤), (⊥, ⊤)]
  | .skewStudentT _ _ => [(⊥, ⊤), ((eps : ℝ), ⊤), ((eps : ℝ), ⊤), ((eps : ℝ), ⊤)]
  | _ => [(⊥, ⊤), ((eps : ℝ), ⊤)]

end Verif.Spec
