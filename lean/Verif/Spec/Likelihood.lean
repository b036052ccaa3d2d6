import Mathlib.Analysis.SpecialFunctions.Log.Basic
import Mathlib.Analysis.SpecialFunctions.Trigonometric.Basic
import Mathlib.Data.Nat.Factorial.Basic
import Mathlib.Data.Nat.Choose.Basic

/-!
# Densities and likelihoods, as in the documentation of the distributions
-/

namespace Verif.Spec

/-- the likelihood of a sample -/
noncomputable def lik {α : Type} (pdf : α → ℝ) (l : List α) : ℝ := (l.map pdf).prod

noncomputable def normalPdf (μ σ x : ℝ) : ℝ :=
  1 / (σ * √(2 * Real.pi)) * Real.exp (-(x - μ) ^ 2 / (2 * σ ^ 2))

noncomputable def logNormalPdf (μ σ x : ℝ) : ℝ :=
  1 / (x * σ * √(2 * Real.pi)) * Real.exp (-(Real.log x - μ) ^ 2 / (2 * σ ^ 2))

noncomputable def logitNormalPdf (μ σ x : ℝ) : ℝ :=
  1 / (x * (1 - x) * σ * √(2 * Real.pi)) * Real.exp (-(Real.log (x / (1 - x)) - μ) ^ 2 / (2 * σ ^ 2))

noncomputable def halfNormalPdf (σ x : ℝ) : ℝ :=
  if x < 0 then 0 else √2 / (σ * √Real.pi) * Real.exp (-x ^ 2 / (2 * σ ^ 2))

noncomputable def exponentialPdf (lam x : ℝ) : ℝ := if x < 0 then 0 else lam * Real.exp (-(lam * x))

noncomputable def poissonPmf (mu : ℝ) (k : ℕ) : ℝ := Real.exp (-mu) * mu ^ k / k.factorial

noncomputable def geometricPmf (p : ℝ) (k : ℕ) : ℝ := if k = 0 then 0 else p * (1 - p) ^ (k - 1)

noncomputable def uniformPdf (a b x : ℝ) : ℝ := if a ≤ x ∧ x ≤ b then 1 / (b - a) else 0

noncomputable def discreteUniformPmf (a b k : ℤ) : ℝ := if a ≤ k ∧ k ≤ b then 1 / ((b : ℝ) - a + 1) else 0

noncomputable def laplacePdf (μ b x : ℝ) : ℝ := 1 / (2 * b) * Real.exp (-|x - μ| / b)

noncomputable def triangularPdf (a c b x : ℝ) : ℝ :=
  if x < a then 0
  else if x < c then 2 * (x - a) / ((b - a) * (c - a))
  else if x = c then 2 / (b - a)
  else if x ≤ b then 2 * (b - x) / ((b - a) * (b - c))
  else 0

noncomputable def binomialPmf (n : ℕ) (p : ℝ) (k : ℕ) : ℝ := n.choose k * p ^ k * (1 - p) ^ (n - k)

end Verif.Spec
