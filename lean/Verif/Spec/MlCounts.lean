import Verif.Spec.CountLaw
import Verif.Spec.MlExist

/-!
# Mean, variance and zeros of a sample of counts; distances of a sample to a point (C140)
-/

namespace Verif.Spec

noncomputable def countMean (s : List ℕ) : ℝ := (s.map fun x : ℕ => (x : ℝ)).sum / s.length

noncomputable def countVar (s : List ℕ) : ℝ := (s.map fun x : ℕ => ((x : ℝ) - countMean s) ^ 2).sum / s.length

/-- the fraction of zeros -/
noncomputable def zeroShare (s : List ℕ) : ℝ := s.count 0 / s.length

/-- the root of the total distance to the larger values plus that to the smaller ones -/
noncomputable def rootSplit (s : List ℝ) (c : ℝ) : ℝ :=
  √((s.filter (c < ·)).map fun x => x - c).sum + √((s.filter (· < c)).map fun x => c - x).sum

end Verif.Spec
