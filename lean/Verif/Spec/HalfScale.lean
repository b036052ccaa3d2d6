import Verif.Spec.LocScale
import Verif.Spec.Likelihood
import Verif.Spec.LawMore

/-!
# Densities on the half line with a scale (C117)
-/

namespace Verif.Spec
open MeasureTheory Verif.Param

/-- halfcauchy.py:17-18, on the support `[0, ∞)` -/
noncomputable def halfCauchyPdf (b x : ℝ) : ℝ := if x < 0 then 0 else 2 / (Real.pi * b * (1 + (x / b) ^ 2))

/-- families on the half line with a scale (the degrees of freedom of HalfStudentT are given) -/
inductive HalfFam
  | exponential
  | halfNormal
  | halfCauchy
  | halfStudentT (nu : ℝ)

/-- the documented density with scale `s`; exponential.py:16, 41: the scale is one over `lam` -/
noncomputable def HalfFam.pdf : HalfFam → ℝ → ℝ → ℝ
  | .exponential => fun s => exponentialPdf (1 / s)
  | .halfNormal => halfNormalPdf
  | .halfCauchy => halfCauchyPdf
  | .halfStudentT n => halfStudentPdf n

def HalfFam.Ok : HalfFam → Prop
  | .halfStudentT n => 0 < n
  | _ => True

/-- the scale of the distribution whose free parameter is `v` -/
noncomputable def HalfFam.scale : HalfFam → ℝ → ℝ
  | .exponential, v => 1 / v
  | _, v => v

/-- the class -/
def HalfFam.family : HalfFam → Family
  | .exponential => .exponential
  | .halfNormal => .halfNormal
  | .halfCauchy => .simple .halfCauchy
  | .halfStudentT _ => .halfStudentT

/-- the arguments the user gives: none, or the degrees of freedom -/
noncomputable def HalfFam.given : HalfFam → Kw
  | .halfStudentT n => fun k => if k = "nu" then some n else none
  | _ => fun _ => none

/-- the values of the attributes of the distribution whose free parameter is `v` -/
noncomputable def HalfFam.values : HalfFam → ℝ → List (Option ℝ)
  | .halfStudentT n, v => [some n, some v]
  | _, v => [some v]

/-- exponential.py:63, halfnormal.py:71, halfcauchy.py:50, halfstudentt.py:89 -/
noncomputable def HalfFam.box : HalfFam → Box
  | .halfStudentT _ => [((eps : ℝ), ⊤), ((eps : ℝ), ⊤)]
  | _ => [((eps : ℝ), ⊤)]

end Verif.Spec
