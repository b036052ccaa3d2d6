import Mathlib.Probability.Distributions.Beta
import Mathlib.Probability.Distributions.Gamma
import Mathlib.MeasureTheory.Constructions.Pi

/-!
# The Dirichlet law: proportions of independent gamma variables
-/

namespace Verif.Spec
open MeasureTheory ProbabilityTheory

/-- the law of `g i / ∑ g` for independent gamma variables `g i` with shapes `alpha i` and rate one -/
noncomputable def dirichletLaw {n : ℕ} (alpha : Fin n → ℝ) : Measure (Fin n → ℝ) :=
  (Measure.pi fun i => gammaMeasure (alpha i) 1).map fun g i => g i / ∑ j, g j

end Verif.Spec
