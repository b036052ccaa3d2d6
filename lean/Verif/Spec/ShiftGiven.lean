import Verif.Spec.MaxentHdi
import Verif.Spec.PeakGiven

/-!
# Families that need not be symmetric, location or scale given (C133)
-/

namespace Verif.Spec
open MeasureTheory Verif.Param

/-- gumbel.py, moyal.py, asymmetric_laplace.py, skewnormal.py, skew_studentt.py: `mu` -/
def ShiftFam.locName : ShiftFam → String
  | .peak F => F.locName
  | _ => "mu"

/-- gumbel.py: `beta`; asymmetric_laplace.py: `b`; moyal.py, skewnormal.py, skew_studentt.py: `sigma` -/
def ShiftFam.scaleName : ShiftFam → String
  | .peak F => F.scaleName
  | .gumbel => "beta"
  | .asymmetricLaplace _ => "b"
  | _ => "sigma"

/-- the arguments with one more given -/
noncomputable def ShiftFam.with (F : ShiftFam) (name : String) (v : ℝ) : Kw :=
  fun k => if k = name then some v else F.given k

/-- the probability of the values below the location -/
noncomputable def ShiftFam.below (F : ShiftFam) : ℝ := (ofPdf (F.pdf 0 1)).real (Set.Iio 0)

end Verif.Spec
