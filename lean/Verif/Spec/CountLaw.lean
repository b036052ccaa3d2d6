import Verif.Spec.Law
import Verif.Spec.NumFit

/-!
# The documented mass functions of the count families (C134)
-/

namespace Verif.Spec
open MeasureTheory Verif.Param Verif.NumFit

/-- the law with a mass function on the natural numbers -/
noncomputable def ofCounts (f : ℕ → ℝ) : Measure ℝ := ofPmf fun k => if k < 0 then 0 else f k.toNat

/-- negativebinomial.py:23-27, with the binomial coefficient written as in zi_negativebinomial.py:31 -/
noncomputable def negBinomialPmf (mu alpha : ℝ) (x : ℕ) : ℝ :=
  Real.Gamma (x + alpha) / (x.factorial * Real.Gamma alpha) * (alpha / (mu + alpha)) ^ alpha * (mu / (mu + alpha)) ^ x

/-- betabinomial.py:20-24 -/
noncomputable def betaBinomialPmf (alpha beta : ℝ) (n x : ℕ) : ℝ :=
  n.choose x * (ProbabilityTheory.beta (x + alpha) (n - x + beta) / ProbabilityTheory.beta alpha beta)

/-- hypergeometric.py:20 -/
noncomputable def hyperGeometricPmf (N k n x : ℕ) : ℝ :=
  if x ≤ n then (k.choose x * (N - k).choose (n - x) : ℝ) / N.choose n else 0

/-- discrete_weibull.py:20-22 -/
noncomputable def discreteWeibullPmf (q beta : ℝ) (x : ℕ) : ℝ := q ^ ((x : ℝ) ^ beta) - q ^ (((x : ℝ) + 1) ^ beta)

/-- zi_poisson.py:17-22, zi_binomial.py:15-20, zi_negativebinomial.py:24-37 -/
noncomputable def zeroInflatedPmf (psi : ℝ) (f : ℕ → ℝ) (x : ℕ) : ℝ := if x = 0 then 1 - psi + psi * f 0 else psi * f x

/-- the count families with two parameters left to fit (the number of trials, or the `alpha` of
ZeroInflatedNegativeBinomial, is given) -/
inductive CountPair
  | negativeBinomial
  | ziPoisson
  | betaBinomial (n : ℕ)
  | ziBinomial (n : ℕ)
  | ziNegativeBinomial (alpha : ℝ)

/-- negativebinomial.py, zi_poisson.py, betabinomial.py, zi_binomial.py, zi_negativebinomial.py -/
def CountPair.family : CountPair → Family
  | .negativeBinomial => .negativeBinomial
  | .ziPoisson => .simple .ziPoisson
  | .betaBinomial _ => .simple .betaBinomial
  | .ziBinomial _ => .simple .ziBinomial
  | .ziNegativeBinomial _ => .ziNegativeBinomial

/-- the mass function with the two free parameters, in the order of the constructor -/
noncomputable def CountPair.pmf : CountPair → ℝ → ℝ → ℕ → ℝ
  | .negativeBinomial, a, b => negBinomialPmf a b
  | .ziPoisson, a, b => zeroInflatedPmf a (poissonPmf b)
  | .betaBinomial n, a, b => betaBinomialPmf a b n
  | .ziBinomial n, a, b => zeroInflatedPmf a (binomialPmf n b)
  | .ziNegativeBinomial alpha, a, b => zeroInflatedPmf a (negBinomialPmf b alpha)

/-- all parameters, in the order of the constructor -/
def CountPair.vals : CountPair → ℝ → ℝ → List ℝ
  | .negativeBinomial, a, b => [a, b]
  | .ziPoisson, a, b => [a, b]
  | .betaBinomial n, a, b => [a, b, n]
  | .ziBinomial n, a, b => [a, n, b]
  | .ziNegativeBinomial alpha, a, b => [a, b, alpha]

/-- the arguments the user gives -/
noncomputable def CountPair.given : CountPair → Kw
  | .betaBinomial n => fun k => if k = "n" then some (n : ℝ) else none
  | .ziBinomial n => fun k => if k = "n" then some (n : ℝ) else none
  | .ziNegativeBinomial alpha => fun k => if k = "alpha" then some alpha else none
  | _ => fun _ => none

/-- the value given is admissible; with one trial there is nothing to choose -/
def CountPair.Ok : CountPair → Prop
  | .betaBinomial n => 2 ≤ n
  | .ziBinomial n => 2 ≤ n
  | .ziNegativeBinomial alpha => 0 < alpha
  | _ => True

/-- the documented ranges of the two parameters -/
def CountPair.Adm : CountPair → ℝ → ℝ → Prop
  | .negativeBinomial, a, b => 0 < a ∧ 0 < b
  | .ziPoisson, a, b => (0 < a ∧ a < 1) ∧ 0 < b
  | .betaBinomial _, a, b => 0 < a ∧ 0 < b
  | .ziBinomial _, a, b => (0 < a ∧ a < 1) ∧ 0 < b ∧ b < 1
  | .ziNegativeBinomial _, a, b => (0 < a ∧ a < 1) ∧ 0 < b

/-- the mean and the variance of some distribution of the family -/
def CountPair.Reach : CountPair → ℝ → ℝ → Prop
  | .negativeBinomial, m, v => 0 < m ∧ m < v
  | .ziPoisson, m, v => 0 < m ∧ m < v
  | .betaBinomial n, m, v => m * (n - m) < n * v ∧ v < m * (n - m)
  | .ziBinomial n, m, v => m * (n - m) < n * v ∧ v < m * (n - m)
  | .ziNegativeBinomial alpha, m, v => 0 < m ∧ m + m ^ 2 / alpha < v

/-- the parameters of the distribution with mean `m` and variance `v` -/
noncomputable def CountPair.fitted : CountPair → ℝ → ℝ → ℝ × ℝ
  | .negativeBinomial, m, v => (m, m ^ 2 / (v - m))
  | .ziPoisson, m, v => (m / (v / m - 1 + m), v / m - 1 + m)
  | .betaBinomial n, m, v =>
    (m * (m * (n - m) - v) / (n * v - m * (n - m)), (n - m) * (m * (n - m) - v) / (n * v - m * (n - m)))
  | .ziBinomial n, m, v => (m / (n * ((v / m - 1 + m) / (n - 1))), (v / m - 1 + m) / (n - 1))
  | .ziNegativeBinomial alpha, m, v =>
    (m / ((v / m - 1 + m) * alpha / (1 + alpha)), (v / m - 1 + m) * alpha / (1 + alpha))

/-- negativebinomial.py:87, zi_poisson.py:61, betabinomial.py:63, zi_binomial.py:62, zi_negativebinomial.py:95 -/
noncomputable def CountPair.box : CountPair → Box
  | .negativeBinomial => [((eps : ℝ), ⊤), ((eps : ℝ), ⊤)]
  | .ziPoisson => [((eps : ℝ), ((1 - eps : ℝ) : EReal)), ((eps : ℝ), ⊤)]
  | .betaBinomial _ => [((eps : ℝ), ⊤), ((eps : ℝ), ⊤), ((eps : ℝ), ⊤)]
  | .ziBinomial _ => [((eps : ℝ), ((1 - eps : ℝ) : EReal)), ((eps : ℝ), ⊤), ((eps : ℝ), ((1 - eps : ℝ) : EReal))]
  | .ziNegativeBinomial _ => [((eps : ℝ), ((1 - eps : ℝ) : EReal)), ((eps : ℝ), ⊤), ((eps : ℝ), ⊤)]

/-- the bounds of the two free parameters -/
noncomputable def CountPair.free : CountPair → Box
  | .negativeBinomial => [((eps : ℝ), ⊤), ((eps : ℝ), ⊤)]
  | .ziPoisson => [((eps : ℝ), ((1 - eps : ℝ) : EReal)), ((eps : ℝ), ⊤)]
  | .betaBinomial _ => [((eps : ℝ), ⊤), ((eps : ℝ), ⊤)]
  | .ziBinomial _ => [((eps : ℝ), ((1 - eps : ℝ) : EReal)), ((eps : ℝ), ((1 - eps : ℝ) : EReal))]
  | .ziNegativeBinomial _ => [((eps : ℝ), ((1 - eps : ℝ) : EReal)), ((eps : ℝ), ⊤)]

end Verif.Spec
