import Verif.Spec.Law

/-!
# The laws with the documented densities of HalfStudentT and ExGaussian (C112)
-/

namespace Verif.Spec
open MeasureTheory

/-- halfstudentt.py:25-30, on the support `[0, ∞)` -/
noncomputable def halfStudentPdf (n s x : ℝ) : ℝ :=
  if x < 0 then 0
  else 2 * Real.Gamma ((n + 1) / 2) / (Real.Gamma (n / 2) * √(n * Real.pi * s ^ 2)) *
    (1 + 1 / n * (x ^ 2 / s ^ 2)) ^ (-((n + 1) / 2))

/-- the cumulative distribution function of the standard normal distribution -/
noncomputable def stdNormalCdf (y : ℝ) : ℝ := ∫ t in Set.Iic y, normalPdf 0 1 t

/-- exgaussian.py:19-25 -/
noncomputable def exGaussianPdf (m s n x : ℝ) : ℝ :=
  1 / n * Real.exp ((m - x) / n + s ^ 2 / (2 * n ^ 2)) * stdNormalCdf ((x - m) / s - s / n)

/-- halfstudentt.py:44-47 -/
noncomputable def halfStudentMean (n s : ℝ) : ℝ :=
  2 * s * √(n / Real.pi) * (Real.Gamma ((n + 1) / 2) / (Real.Gamma (n / 2) * (n - 1)))

/-- halfstudentt.py:48-52 -/
noncomputable def halfStudentVar (n s : ℝ) : ℝ :=
  s ^ 2 * (n / (n - 2) - 4 * n / (Real.pi * (n - 1) ^ 2) * (Real.Gamma ((n + 1) / 2) / Real.Gamma (n / 2)) ^ 2)

end Verif.Spec
