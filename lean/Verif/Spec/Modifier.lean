import Verif.Model.Modifier
import Mathlib.Probability.ConditionalProbability
import Mathlib.MeasureTheory.Integral.Bochner.Basic
import Mathlib.MeasureTheory.Measure.Dirac

/-!
# What truncating, censoring, adding a hurdle and mixing mean, as operations on laws

Nothing here uses the formulas in the code: a truncated law is a conditional law, a censored law is
the law of the clipped variable, a hurdle law is a point mass at zero mixed with the law conditioned
on being positive, and a mixture is the weighted sum of laws.
-/

namespace Verif.Spec
open Verif MeasureTheory

/-- A bound that is an integer or infinite -/
def Whole (e : EReal) : Prop := e = ⊤ ∨ e = ⊥ ∨ ∃ n : ℤ, e = ((n : ℝ) : EReal)

/-- The real points between two bounds -/
def between (l u : EReal) : Set ℝ := {y : ℝ | l ≤ (y : EReal) ∧ (y : EReal) ≤ u}

/-- The law conditioned on lying between the bounds -/
noncomputable def truncLaw (μ : Measure ℝ) (l u : EReal) : Measure ℝ :=
  ProbabilityTheory.cond μ (between l u)

/-- The law of the variable clipped to the bounds -/
noncomputable def clipFn (l u : EReal) (y : ℝ) : ℝ := (max l (min u (y : EReal))).toReal
noncomputable def censLaw (μ : Measure ℝ) (l u : EReal) : Measure ℝ := μ.map (clipFn l u)

/-- `f` is the probability mass function of `μ`, and `μ` lives on the integers -/
def IsPmf (μ : Measure ℝ) (f : ℝ → ℝ) : Prop :=
  (∀ᵐ (y : ℝ) ∂μ, ∃ k : ℤ, y = k) ∧ ∀ x, f x = μ.real {x}

/-- `f` is a density of `μ` with respect to `ν` -/
def IsDensity (ν μ : Measure ℝ) (f : ℝ → ℝ) : Prop :=
  (∀ x, 0 ≤ f x) ∧ μ = ν.withDensity fun x => ENNReal.ofReal (f x)

/-- `Q` is the quantile of level `q` of `μ`: the smallest point with cumulative probability `≥ q` -/
def IsQuantile (μ : Measure ℝ) (q : ℝ) (Q : EReal) : Prop :=
  ∀ x : ℝ, Q ≤ (x : EReal) ↔ q ≤ μ.real (Set.Iic x)

/-- unit mass at a bound, nothing if the bound is infinite -/
noncomputable def atomAt (e : EReal) : Measure ℝ :=
  if e = ⊤ ∨ e = ⊥ then 0 else Measure.dirac e.toReal

/-- length strictly between the bounds plus unit atoms at the finite bounds -/
noncomputable def censRef (l u : EReal) : Measure ℝ :=
  volume.restrict {y : ℝ | l < (y : EReal) ∧ (y : EReal) < u} + atomAt l + atomAt u

/-- Zero with probability `1 - psi`, otherwise the law conditioned on being positive -/
noncomputable def hurdleLaw (μ : Measure ℝ) (psi : ℝ) : Measure ℝ :=
  ENNReal.ofReal (1 - psi) • Measure.dirac 0 +
    ENNReal.ofReal psi • ProbabilityTheory.cond μ (Set.Ioi 0)

/-- Weighted sum of laws, weights normalised -/
noncomputable def mixLaw (μs : List (Measure ℝ)) (ws : List ℝ) : Measure ℝ :=
  (List.zipWith (fun μ w => ENNReal.ofReal (w / ws.sum) • μ) μs ws).sum

/-- mean, variance, and standardised central moments of a law -/
noncomputable def mean (μ : Measure ℝ) : ℝ := ∫ y, y ∂μ
noncomputable def central (μ : Measure ℝ) (k : ℕ) : ℝ := ∫ y, (y - mean μ) ^ k ∂μ
noncomputable def skew (μ : Measure ℝ) : ℝ := central μ 3 / Real.sqrt (central μ 2) ^ 3
noncomputable def exKurt (μ : Measure ℝ) : ℝ := central μ 4 / Real.sqrt (central μ 2) ^ 4 - 3

end Verif.Spec

namespace Verif.Spec
open Verif MeasureTheory

/-- the four reported moments are the exact moments of the law -/
structure ExactMoments (t : Modifier.TruncMoments) (μ : Measure ℝ) : Prop where
  mean : t.mean = Spec.mean μ
  var : t.var = central μ 2
  skewness : t.skewness = skew μ
  kurtosis : t.kurtosis = exKurt μ

end Verif.Spec
