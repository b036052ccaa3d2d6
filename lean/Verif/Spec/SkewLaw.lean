import Verif.Spec.LawMore

/-!
# The documented densities of SkewNormal and SkewStudentT (C132)
-/

namespace Verif.Spec
open MeasureTheory

/-- skewnormal.py:25-26, with `√tau = 1 / s` (skewnormal.py:50) -/
noncomputable def skewNormalPdf (al m s x : ℝ) : ℝ := 2 * stdNormalCdf ((x - m) / s * al) * normalPdf m s x

/-- skewnormal.py:39 -/
noncomputable def skewNormalMean (al m s : ℝ) : ℝ := m + s * √(2 / Real.pi) * (al / √(1 + al ^ 2))

/-- skewnormal.py:40 -/
noncomputable def skewNormalVar (al s : ℝ) : ℝ := s ^ 2 * (1 - 2 * al ^ 2 / ((al ^ 2 + 1) * Real.pi))

/-- the constant of skew_studentt.py:31 with `B(a, b) = Γ(a) Γ(b) / Γ(a + b)` -/
noncomputable def skewStudentConst (a b : ℝ) : ℝ :=
  2 ^ (a + b - 1) * (Real.Gamma a * Real.Gamma b / Real.Gamma (a + b)) * (a + b) ^ (1 / 2 : ℝ)

/-- skew_studentt.py:24-25 at `t = (x - m) / s`, divided by `s` -/
noncomputable def skewStudentPdf (a b m s x : ℝ) : ℝ :=
  (skewStudentConst a b)⁻¹ * (1 + (x - m) / s / (a + b + ((x - m) / s) ^ 2) ^ (1 / 2 : ℝ)) ^ (a + 1 / 2) *
    (1 - (x - m) / s / (a + b + ((x - m) / s) ^ 2) ^ (1 / 2 : ℝ)) ^ (b + 1 / 2) / s

/-- skew_studentt.py:49-50 -/
noncomputable def skewStudentMean (a b m s : ℝ) : ℝ :=
  m + s * ((a - b) * √(a + b) / 2) * (Real.Gamma (a - 1 / 2) * Real.Gamma (b - 1 / 2) / (Real.Gamma a * Real.Gamma b))

end Verif.Spec
