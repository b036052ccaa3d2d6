import Verif.Model.NestLaw
import Verif.Spec.Modifier

/-! # What the functions of a nest of modifiers should compute -/

namespace Verif.Spec
open Verif MeasureTheory Verif.NestLaw

/-- the points inside all the given intervals -/
def insideAll (ws : List (EReal × EReal)) : Set ℝ := {y | ∀ w ∈ ws, w.1 ≤ (y : EReal) ∧ (y : EReal) ≤ w.2}

/-- `f` are the functions of a distribution with law `μ`: mass or density function, distribution function and quantiles -/
structure Computes (f : Fns) (μ : Measure ℝ) : Prop where
  prob : IsProbabilityMeasure μ
  pmf : f.discrete = true → IsPmf μ f.pdf
  density : f.discrete = false → IsDensity volume μ f.pdf
  cdf : ∀ x : EReal, f.cdf x = μ.real {y : ℝ | (y : EReal) ≤ x}
  ppf : ∀ q, 0 < q → q ≤ 1 → ∃ Q, f.ppf q = some Q ∧ IsQuantile μ q Q

end Verif.Spec
