import Verif.Model.FromPymc

/-!
# What a user writes in PyMC, the node PyMC builds for it, and the PreliZ object it describes

Used by C69.  PyMC is not part of the model; `Fam.node`, `Written.node` are its conventions.
-/

namespace Verif.Spec.FromPymc
open Verif Verif.Ppl

/-- a univariate family with the parameters the user gives -/
inductive Fam
  | asymmetricLaplace (mu b kappa : ℝ)
  | exponential (lam : ℝ)
  | gamma (alpha beta : ℝ)
  | rice (nu sigma : ℝ)
  | skewStudentT (mu sigma a b : ℝ)
  | wald (mu lam : ℝ)
  | betaBinomial (alpha beta n : ℝ)
  | negativeBinomial (mu alpha : ℝ)
  | hyperGeometric (bigN k n : ℝ)
  | halfNormal (sigma : Option ℝ)
  | logitNormal (mu sigma : Option ℝ)
  | other (name : String) (params : List (Option ℝ))

/-- the families with their own constructor above -/
def special : List String :=
  ["AsymmetricLaplace", "Exponential", "Gamma", "Rice", "SkewStudentT", "Wald", "BetaBinomial",
   "NegativeBinomial", "HyperGeometric", "HalfNormal", "LogitNormal"]

def Fam.name : Fam → String
  | .asymmetricLaplace .. => "AsymmetricLaplace"
  | .exponential .. => "Exponential"
  | .gamma .. => "Gamma"
  | .rice .. => "Rice"
  | .skewStudentT .. => "SkewStudentT"
  | .wald .. => "Wald"
  | .betaBinomial .. => "BetaBinomial"
  | .negativeBinomial .. => "NegativeBinomial"
  | .hyperGeometric .. => "HyperGeometric"
  | .halfNormal .. => "HalfNormal"
  | .logitNormal .. => "LogitNormal"
  | .other name _ => name

/-- admissible parameters; a univariate family PreliZ has -/
def Fam.Valid : Fam → Prop
  | .exponential lam => 0 < lam
  | .gamma _ beta => 0 < beta
  | .rice _ sigma => 0 < sigma
  | .negativeBinomial mu alpha => 0 ≤ mu ∧ 0 < alpha
  | .other name _ => name ∈ Catalog.allContinuous.map Catalog.Entry.name ++
      Catalog.allDiscrete.map Catalog.Entry.name ∧ name ∉ special
  | _ => True

/-- parameters stored in the node -/
noncomputable def Fam.params : Fam → List (Option ℝ)
  | .asymmetricLaplace mu b kappa => [some b, some kappa, some mu]
  | .exponential lam => [some (1 / lam)]
  | .gamma alpha beta => [some alpha, some (1 / beta)]
  | .rice nu sigma => [some (nu / sigma), some sigma]
  | .skewStudentT mu sigma a b => [some a, some b, some mu, some sigma]
  | .wald mu lam => [some mu, some lam, some 0]
  | .betaBinomial alpha beta n => [some n, some alpha, some beta]
  | .negativeBinomial mu alpha => [some alpha, some (alpha / (mu + alpha))]
  | .hyperGeometric bigN k n => [some k, some (bigN - k), some n]
  | .halfNormal sigma => [sigma]
  | .logitNormal mu sigma => [mu, sigma]
  | .other _ params => params

/-- inputs of the node: the generator, the size, for HalfNormal a location, then the parameters;
LogitNormal has no size -/
noncomputable def Fam.inputs (f : Fam) : List Input :=
  match f with
  | .halfNormal _ => [.other, .other, .num (some 0)] ++ f.params.map .num
  | .logitNormal _ _ => [.other] ++ f.params.map .num
  | _ => [.other, .other] ++ f.params.map .num

/-- the PreliZ object with the user's parameters -/
def Fam.object : Fam → PDist
  | .asymmetricLaplace mu b kappa =>
    .family "AsymmetricLaplace" (.named [("mu", some mu), ("b", some b), ("kappa", some kappa)])
  | .exponential lam => .family "Exponential" (.positional [some lam])
  | .gamma alpha beta => .family "Gamma" (.named [("alpha", some alpha), ("beta", some beta)])
  | .rice nu sigma => .family "Rice" (.named [("nu", some nu), ("sigma", some sigma)])
  | .skewStudentT mu sigma a b =>
    .family "SkewStudentT" (.named [("mu", some mu), ("sigma", some sigma), ("a", some a), ("b", some b)])
  | .wald mu lam => .family "Wald" (.named [("mu", some mu), ("lam", some lam)])
  | .betaBinomial alpha beta n =>
    .family "BetaBinomial" (.named [("alpha", some alpha), ("beta", some beta), ("n", some n)])
  | .negativeBinomial mu alpha =>
    .family "NegativeBinomial" (.named [("mu", some mu), ("alpha", some alpha)])
  | .hyperGeometric bigN k n =>
    .family "HyperGeometric" (.named [("N", some bigN), ("k", some k), ("n", some n)])
  | .halfNormal sigma => .family "HalfNormal" (.positional [sigma])
  | .logitNormal mu sigma => .family "LogitNormal" (.positional [mu, sigma])
  | .other name params => .family name (.positional params)

/-- base of a zero-inflated variable -/
inductive Inflated
  | poisson (mu : Option ℝ)
  | binomial (n p : Option ℝ)
  | negativeBinomial (mu alpha : ℝ)

/-- what the user writes: bounds left out are `none` -/
inductive Written
  | family (f : Fam)
  | censored (base : Written) (lower upper : Option ℝ)
  | truncated (base : Fam) (lower upper : Option ℝ)
  | zeroInflated (base : Inflated) (psi : ℝ)
  | hurdle (base : Fam) (psi : ℝ)
  | mixture (weights : List ℝ) (comps : List Written)

noncomputable def Inflated.node : Inflated → Node
  | .poisson mu => .plain "Poisson" [.other, .other, .num mu]
  | .binomial n p => .plain "Binomial" [.other, .other, .num n, .num p]
  | .negativeBinomial mu alpha =>
    .plain "NegativeBinomial" [.other, .other, .num (some alpha), .num (some (alpha / (mu + alpha)))]

mutual
/-- the node PyMC builds; `none` (NaN) is an absent bound -/
noncomputable def Written.node : Written → Node
  | .family f => .plain f.name f.inputs
  | .censored base lower upper => .censored base.node lower upper
  | .truncated base lower upper => .truncated base.name (base.inputs ++ [.num lower, .num upper])
  | .zeroInflated base psi =>
    .mixture [some (1 - psi), some psi] [.plain "DiracDelta" [.other, .other, .num (some 0)], base.node]
  | .hurdle base psi => .hurdle [some (1 - psi), some psi] base.name base.inputs
  | .mixture weights comps => .mixture (weights.map some) (Written.nodes comps)

noncomputable def Written.nodes : List Written → List Node
  | [] => []
  | c :: cs => c.node :: Written.nodes cs
end

/-- an absent lower bound is minus infinity, an absent upper bound is infinity -/
noncomputable def lowerBound (b : Option ℝ) : EReal := b.elim ⊥ fun x => (x : EReal)
noncomputable def upperBound (b : Option ℝ) : EReal := b.elim ⊤ fun x => (x : EReal)

mutual
/-- the PreliZ object the user's text describes -/
noncomputable def Written.object : Written → PDist
  | .family f => f.object
  | .censored base lower upper => .censored base.object (lowerBound lower) (upperBound upper)
  | .truncated base lower upper => .truncated base.object (lowerBound lower) (upperBound upper)
  | .zeroInflated (.poisson mu) psi => .family "ZeroInflatedPoisson" (.positional [some psi, mu])
  | .zeroInflated (.binomial n p) psi => .family "ZeroInflatedBinomial" (.positional [some psi, n, p])
  | .zeroInflated (.negativeBinomial mu alpha) psi =>
    .family "ZeroInflatedNegativeBinomial" (.positional [some psi, some mu, some alpha])
  | .hurdle base psi => .hurdle base.object (some psi)
  | .mixture weights comps => .mixture (Written.objects comps) (weights.map some)

noncomputable def Written.objects : List Written → List PDist
  | [] => []
  | c :: cs => c.object :: Written.objects cs
end

/-- base of a truncated or hurdle variable the conversion gets right -/
def Plain (f : Fam) : Prop := ∀ s : Option ℝ, f ≠ .halfNormal s ∧ ∀ m, f ≠ .logitNormal m s

mutual
/-- the texts covered: admissible parameters, at least one component in a mixture, no HalfNormal or
LogitNormal under Truncated and Hurdle -/
def Written.Valid : Written → Prop
  | .family f => f.Valid
  | .censored base _ _ => base.Valid
  | .truncated base _ _ => base.Valid ∧ Plain base
  | .zeroInflated (.negativeBinomial mu alpha) _ => 0 ≤ mu ∧ 0 < alpha
  | .zeroInflated _ _ => True
  | .hurdle base _ => base.Valid ∧ Plain base
  | .mixture _ comps => comps ≠ [] ∧ Written.Valids comps

def Written.Valids : List Written → Prop
  | [] => True
  | c :: cs => c.Valid ∧ Written.Valids cs
end

end Verif.Spec.FromPymc
