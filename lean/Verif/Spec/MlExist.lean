import Verif.Spec.Law
import Verif.Spec.LawMore
import Verif.Spec.RiceWeibull
import Verif.Spec.QuartileShape
import Verif.Spec.Likelihood

/-!
# Most likely parameters of the families that are fitted numerically
-/

namespace Verif.Spec

/-- families with two parameters -/
inductive MlFam
  | gumbel
  | logistic
  | moyal
  | weibull
  | logLogistic
  | gamma
  | inverseGamma
  | beta
  | wald
  | pareto
  deriving DecidableEq

namespace MlFam

/-- the documented density; the parameters in the order of the documentation -/
noncomputable def pdf : MlFam → ℝ → ℝ → ℝ → ℝ
  | gumbel => gumbelPdf
  | logistic => logisticPdf
  | moyal => moyalPdf
  | weibull => weibullPdf
  | logLogistic => logLogisticPdf
  | gamma => gammaPdf
  | inverseGamma => inverseGammaPdf
  | beta => betaPdf
  | wald => waldPdf
  | pareto => paretoPdf

/-- the documented domain of the parameters -/
def Good : MlFam → ℝ → ℝ → Prop
  | gumbel, _, b => 0 < b
  | logistic, _, b => 0 < b
  | moyal, _, b => 0 < b
  | weibull, a, b => 0 < a ∧ 0 < b
  | logLogistic, a, b => 0 < a ∧ 0 < b
  | gamma, a, b => 0 < a ∧ 0 < b
  | inverseGamma, a, b => 0 < a ∧ 0 < b
  | beta, a, b => 0 < a ∧ 0 < b
  | wald, a, b => 0 < a ∧ 0 < b
  | pareto, a, b => 0 < a ∧ 0 < b

/-- the values the family can take -/
def Inside : MlFam → ℝ → Prop
  | gumbel, _ => True
  | logistic, _ => True
  | moyal, _ => True
  | weibull, x => 0 < x
  | logLogistic, x => 0 < x
  | gamma, x => 0 < x
  | inverseGamma, x => 0 < x
  | beta, x => 0 < x ∧ x < 1
  | wald, x => 0 < x
  | pareto, x => 0 < x

/-- no other admissible parameters make the sample more likely -/
def MostLikely (F : MlFam) (s : List ℝ) (p : ℝ × ℝ) : Prop :=
  F.Good p.1 p.2 ∧ ∀ a b, F.Good a b → lik (F.pdf a b) s ≤ lik (F.pdf p.1 p.2) s

end MlFam
end Verif.Spec

namespace Verif.Spec

/-- parameters of any kind: no other admissible ones make the sample more likely -/
def Best {P X : Type} (Good : P → Prop) (pdf : P → X → ℝ) (s : List X) (p : P) : Prop :=
  Good p ∧ ∀ q, Good q → lik (pdf q) s ≤ lik (pdf p) s

end Verif.Spec
