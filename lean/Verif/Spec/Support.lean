import Verif.Spec.Param
import Verif.Model.Support
import Mathlib.Data.EReal.Operations
import Mathlib.Order.Bounds.Basic
import Mathlib.Analysis.Real.Pi.Bounds

/-!
# Documented supports and ranges of parameters

The row "Support" of the class docstrings (as a set), and the ranges in the lists of parameters (as intervals).
-/

namespace Verif.Spec
open Verif Verif.Param Verif.Support

/-- whole numbers in a range -/
def wholes (P : ℤ → Prop) : Set ℝ := {x | ∃ k : ℤ, x = k ∧ P k}

/-- the values a distribution with parameters `a` can take.  ZeroInflatedBinomial: the docstring has ℕ, the values are those
of the binomial part and zero. -/
noncomputable def docSet (a : String → ℝ) : Family → Set ℝ
  | .asymmetricLaplace | .simple .cauchy | .simple .exGaussian | .simple .gumbel | .simple .laplace | .simple .logistic
  | .simple .moyal | .normal | .skewNormal | .skewStudentT | .studentT => Set.univ
  | .bernoulli => {0, 1}
  | .beta | .kumaraswamy | .logitNormal => Set.Ioo 0 1
  | .simple .betaBinomial | .simple .binomial => wholes fun k => 0 ≤ k ∧ (k : ℝ) ≤ a "n"
  | .betaScaled => Set.Ioo (a "lower") (a "upper")
  | .simple .chiSquared | .exponential | .simple .halfCauchy | .halfNormal | .halfStudentT | .simple .logLogistic
  | .simple .logNormal | .simple .weibull => Set.Ici 0
  | .gamma | .inverseGamma | .rice | .wald => Set.Ioi 0
  | .simple .discreteUniform => wholes fun k => a "lower" ≤ k ∧ (k : ℝ) ≤ a "upper"
  | .simple .discreteWeibull | .negativeBinomial | .simple .poisson | .ziNegativeBinomial | .simple .ziPoisson =>
    wholes fun k => 0 ≤ k
  | .simple .geometric => wholes fun k => 0 < k
  | .simple .hyperGeometric => wholes fun k => max 0 (a "n" - a "N" + a "k") ≤ k ∧ (k : ℝ) ≤ min (a "k") (a "n")
  | .simple .pareto => Set.Ici (a "m")
  | .simple .triangular | .simple .truncatedNormal | .simple .uniform => Set.Icc (a "lower") (a "upper")
  | .simple .vonMises => Set.Icc (-Real.pi) Real.pi
  | .simple .ziBinomial => wholes fun k => 0 ≤ k ∧ (k : ℝ) ≤ if a "psi" = 0 then 0 else a "n"

/-- conditions on the parameters without which there are no values -/
def Sensible (a : String → ℝ) : Family → Prop
  | .simple .betaBinomial | .simple .binomial | .simple .ziBinomial => 0 ≤ a "n"
  | .betaScaled | .simple .triangular | .simple .truncatedNormal | .simple .uniform => a "lower" < a "upper"
  | .simple .discreteUniform => a "lower" ≤ a "upper"
  | .simple .hyperGeometric => 0 ≤ a "k" ∧ a "k" ≤ a "N" ∧ 0 ≤ a "n" ∧ a "n" ≤ a "N"
  | _ => True

/-- the ends of a set of numbers -/
def Hull (S : Set ℝ) (e : EReal × EReal) : Prop :=
  IsGLB ((fun x : ℝ => (x : EReal)) '' S) e.1 ∧ IsLUB ((fun x : ℝ => (x : EReal)) '' S) e.2

/-- an interval, open or closed at its finite ends -/
structure Range where
  lo : EReal
  hi : EReal
  closedLo : Bool := false
  closedHi : Bool := false

def Range.mem (r : Range) (x : ℝ) : Prop :=
  (if r.closedLo then r.lo ≤ x else r.lo < x) ∧ (if r.closedHi then (x : EReal) ≤ r.hi else (x : EReal) < r.hi)

noncomputable def line : Range := ⟨⊥, ⊤, false, false⟩
noncomputable def above : Range := ⟨0, ⊤, false, false⟩
noncomputable def fromZero : Range := ⟨0, ⊤, true, false⟩
noncomputable def openUnit : Range := ⟨0, 1, false, false⟩

/-- the documented range of a parameter; `N` is the population of HyperGeometric.  VonMises: one turn.
Beta's `sigma`: √(μ (1 − μ)) is at most 1/2. -/
noncomputable def docRange (N : ℝ) : Family → String → Range
  | .simple .betaBinomial, "n" | .simple .binomial, "n" | .simple .ziBinomial, "n" => fromZero
  | .simple .betaBinomial, _ => above
  | .simple .binomial, "p" | .simple .ziBinomial, _ => openUnit
  | .simple .cauchy, "beta" | .simple .exGaussian, "sigma" | .simple .exGaussian, "nu" | .simple .gumbel, "beta"
  | .simple .laplace, "b" | .simple .logistic, "s" | .simple .logNormal, "sigma" | .simple .moyal, "sigma"
  | .simple .truncatedNormal, "sigma" => above
  | .simple .chiSquared, _ | .simple .halfCauchy, _ | .simple .logLogistic, _ | .simple .pareto, _ | .simple .weibull, _ => above
  | .simple .discreteWeibull, "q" => openUnit
  | .simple .discreteWeibull, _ => above
  | .simple .geometric, _ => ⟨0, 1, false, true⟩
  | .simple .hyperGeometric, "N" => above
  | .simple .hyperGeometric, _ => ⟨0, (N : ℝ), true, true⟩
  | .simple .poisson, _ => fromZero
  | .simple .vonMises, "mu" => ⟨(-Real.pi : ℝ), (Real.pi : ℝ), true, true⟩
  | .simple .vonMises, _ => above
  | .simple .ziPoisson, "psi" => openUnit
  | .simple .ziPoisson, _ => fromZero
  | .asymmetricLaplace, "kappa" | .asymmetricLaplace, "b" => above
  | .asymmetricLaplace, "q" => openUnit
  | .bernoulli, "p" => openUnit
  | .beta, "mu" => openUnit
  | .beta, "sigma" => ⟨0, ((1 / 2 : ℝ) : EReal), false, false⟩
  | .beta, _ => above
  | .betaScaled, "alpha" | .betaScaled, "beta" => above
  | .exponential, _ | .gamma, _ | .halfNormal, _ | .halfStudentT, _ | .inverseGamma, _ | .kumaraswamy, _ | .wald, _ => above
  | .logitNormal, "sigma" | .logitNormal, "tau" | .normal, "sigma" | .normal, "tau" | .skewNormal, "sigma"
  | .skewNormal, "tau" | .skewStudentT, "sigma" | .skewStudentT, "lam" | .skewStudentT, "a" | .skewStudentT, "b"
  | .studentT, "nu" | .studentT, "sigma" | .studentT, "lam" => above
  | .negativeBinomial, "p" | .ziNegativeBinomial, "p" | .ziNegativeBinomial, "psi" => openUnit
  | .negativeBinomial, _ | .ziNegativeBinomial, _ => above
  | .rice, "sigma" => above
  | .rice, _ => fromZero
  | _, _ => line

/-- values of the range at least the machine epsilon away from its ends -/
def Range.Inner (r : Range) (x : ℝ) : Prop := r.mem x ∧ r.lo + (eps : ℝ) ≤ x ∧ (x : EReal) + (eps : ℝ) ≤ r.hi

/-- a whole number -/
def IsWhole (x : ℝ) : Prop := ∃ k : ℤ, x = k

/-- Histories as in C07: construction, re-parametrisation (of frozen objects with a complete set of arguments) and refits.
The numbers given to a HyperGeometric are whole. -/
inductive SReach (f : Family) : SObj → Prop
  | build {kw s} : (f = .simple .hyperGeometric → ∀ k x, kw k = some x → IsWhole x) → sConstruct f kw = .ok s → SReach f s
  | reparam {kw s s'} : SReach f s → (f = .simple .hyperGeometric → ∀ k x, kw k = some x → IsWhole x) →
      (s.obj.frozen = false ∨ Complete f kw) → sParam f kw s = .ok s' → SReach f s'
  | refit {vals s s'} : SReach f s → (f = .simple .hyperGeometric → ∀ x ∈ vals, IsWhole x) →
      sUpdate f vals s = .ok s' → SReach f s'

/-- histories of any kind -/
inductive SAny (f : Family) : SObj → Prop
  | build {kw s} : sConstruct f kw = .ok s → SAny f s
  | reparam {kw s s'} : SAny f s → sParam f kw s = .ok s' → SAny f s'
  | refit {vals s s'} : SAny f s → sUpdate f vals s = .ok s' → SAny f s'

/-- parameters whose interval admits values outside the documented range -/
def Loose (f : Family) (name : String) : Prop :=
  f = .bernoulli ∨ (f = .beta ∧ name = "sigma") ∨ (f = .negativeBinomial ∧ name = "p") ∨
    (f = .ziNegativeBinomial ∧ name = "p") ∨ (f = .simple .hyperGeometric ∧ name ≠ "N")

/-- parameters whose interval misses values of the documented range -/
def Short (f : Family) (name : String) : Prop :=
  (f = .bernoulli ∧ name = "logit_p") ∨ (f = .simple .exGaussian ∧ name = "nu") ∨
    (f = .simple .hyperGeometric ∧ name ≠ "N")

end Verif.Spec
