import Verif.Spec.DiscreteWide
import Verif.Spec.CountLaw
import Verif.Spec.CountOne
import Verif.Spec.QuartileShape

/-!
# Quartiles of distributions on the integers (C152)
-/

namespace Verif.Spec
open MeasureTheory

/-- a quarter, a half and three quarters of the probability are at or below the three values -/
def LawQuartiles (P : Measure ℝ) (q1 q2 q3 : ℝ) : Prop :=
  P.real (Set.Iic q1) = 1 / 4 ∧ P.real (Set.Iic q2) = 1 / 2 ∧ P.real (Set.Iic q3) = 3 / 4

/-- the sum of the squared differences to a quarter, a half and three quarters -/
noncomputable def quartileMiss (P : Measure ℝ) (q1 q2 q3 : ℝ) : ℝ :=
  (P.real (Set.Iic q1) - 1 / 4) ^ 2 + (P.real (Set.Iic q2) - 1 / 2) ^ 2 + (P.real (Set.Iic q3) - 3 / 4) ^ 2

end Verif.Spec
