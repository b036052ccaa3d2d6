import Verif.Model.ToPymc
import Verif.Spec.FromPymc

/-!
# How PyMC reads the calls `to_pymc` makes

Used by C72.  PyMC is not part of the model; `famOf`, `inflatedOf` and `Call.written` are its conventions
(which keyword arguments each class takes).
-/

namespace Verif.Spec.FromPymc
open Verif Verif.Ppl

/-- values of the arguments, if their names are these -/
def named (names : List String) (kw : List (String × ℝ)) : Option (List ℝ) :=
  if kw.map Prod.fst = names then some (kw.map Prod.snd) else none

/-- a family called with keyword arguments -/
def famOf (name : String) (kw : List (String × ℝ)) : Option Fam :=
  if name = "AsymmetricLaplace" then
    match named ["kappa", "mu", "b"] kw with
    | some [kappa, mu, b] => some (.asymmetricLaplace mu b kappa) | _ => none
  else if name = "Exponential" then
    match named ["lam"] kw with | some [lam] => some (.exponential lam) | _ => none
  else if name = "Gamma" then
    match named ["alpha", "beta"] kw with | some [alpha, beta] => some (.gamma alpha beta) | _ => none
  else if name = "Rice" then
    match named ["nu", "sigma"] kw with | some [nu, sigma] => some (.rice nu sigma) | _ => none
  else if name = "SkewStudentT" then
    match named ["mu", "sigma", "a", "b"] kw with
    | some [mu, sigma, a, b] => some (.skewStudentT mu sigma a b) | _ => none
  else if name = "Wald" then
    match named ["mu", "lam"] kw with | some [mu, lam] => some (.wald mu lam) | _ => none
  else if name = "BetaBinomial" then
    match named ["alpha", "beta", "n"] kw with
    | some [alpha, beta, n] => some (.betaBinomial alpha beta n) | _ => none
  else if name = "NegativeBinomial" then
    match named ["mu", "alpha"] kw with
    | some [mu, alpha] => some (.negativeBinomial mu alpha) | _ => none
  else if name = "HyperGeometric" then
    match named ["N", "k", "n"] kw with
    | some [bigN, k, n] => some (.hyperGeometric bigN k n) | _ => none
  else if name = "HalfNormal" then
    match named ["sigma"] kw with | some [sigma] => some (.halfNormal (some sigma)) | _ => none
  else if name = "LogitNormal" then
    match named ["mu", "sigma"] kw with
    | some [mu, sigma] => some (.logitNormal (some mu) (some sigma)) | _ => none
  else some (.other name (kw.map fun nv => some nv.2))

/-- a zero-inflated family called with keyword arguments -/
def inflatedOf (name : String) (kw : List (String × ℝ)) : Option Written :=
  if name = "ZeroInflatedPoisson" then
    match named ["psi", "mu"] kw with
    | some [psi, mu] => some (.zeroInflated (.poisson (some mu)) psi) | _ => none
  else if name = "ZeroInflatedBinomial" then
    match named ["psi", "n", "p"] kw with
    | some [psi, n, p] => some (.zeroInflated (.binomial (some n) (some p)) psi) | _ => none
  else if name = "ZeroInflatedNegativeBinomial" then
    match named ["psi", "mu", "alpha"] kw with
    | some [psi, mu, alpha] => some (.zeroInflated (.negativeBinomial mu alpha) psi) | _ => none
  else none

/-- a bound given as plus or minus infinity is the same as no bound -/
noncomputable def optBound (e : EReal) : Option ℝ := if e = ⊤ ∨ e = ⊥ then none else some e.toReal

/-- hurdle classes: the name of the base, the parameters of the base and then psi -/
def hurdleOf (name : String) (kw : List (String × ℝ)) : Option Written :=
  match famOf (String.ofList (name.toList.drop 6)) kw.dropLast, kw.getLast? with
  | some f, some kv => if kv.1 = "psi" then some (.hurdle f kv.2) else none
  | _, _ => none

mutual
/-- what a call means; truncation takes a family -/
noncomputable def Call.written : Call → Option Written
  | .family name kw =>
    if "ZeroInflated".toList.isPrefixOf name.toList then inflatedOf name kw
    else if "Hurdle".toList.isPrefixOf name.toList then hurdleOf name kw
    else (famOf name kw).map .family
  | .censored base lower upper => (Call.written base).map (.censored · (optBound lower) (optBound upper))
  | .truncated base lower upper =>
    match Call.written base with
    | some (.family f) => some (.truncated f (optBound lower) (optBound upper))
    | _ => none
  | .mixture weights comps => (Call.writtens comps).map (.mixture weights)

noncomputable def Call.writtens : List Call → Option (List Written)
  | [] => some []
  | c :: cs =>
    match Call.written c, Call.writtens cs with
    | some w, some ws => some (w :: ws)
    | _, _ => none
end

/-- two ways to pass the same parameters -/
def SameArgs (kw : List (String × ℝ)) : Args → Prop
  | .named l => l.Perm (kw.map fun nv => (nv.1, some nv.2))
  | .positional l => l = kw.map fun nv => some nv.2

mutual
/-- the constructor calls that rebuild the object -/
def Rebuilds : ZDist → PDist → Prop
  | .family name (some kw), .family name' args => name = name' ∧ SameArgs kw args
  | .censored b l u, .censored b' l' u' => Rebuilds b b' ∧ l = l' ∧ u = u'
  | .truncated b l u, .truncated b' l' u' => Rebuilds b b' ∧ l = l' ∧ u = u'
  | .hurdle b psi, .hurdle b' psi' => Rebuilds b b' ∧ psi' = some psi
  | .mixture cs w, .mixture cs' w' => RebuildsAll cs cs' ∧ w' = w.map some
  | _, _ => False

def RebuildsAll : List ZDist → List PDist → Prop
  | [], [] => True
  | c :: cs, c' :: cs' => Rebuilds c c' ∧ RebuildsAll cs cs'
  | _, _ => False
end

/-- a family with its first parametrisation, admissible parameters, and a class in PyMC -/
def GoodFamily (pm : List String) (name : String) (kw : List (String × ℝ)) (f : Fam) : Prop :=
  name ∈ pm ∧ "ZeroInflated".toList.isPrefixOf name.toList = false ∧ famOf name kw = some f ∧ f.Valid

/-- a family of any kind -/
def GoodOwn (pm : List String) (name : String) : Option (List (String × ℝ)) → Prop
  | some kw => (∃ f, GoodFamily pm name kw f) ∨
      (name ∈ pm ∧ "ZeroInflated".toList.isPrefixOf name.toList = true ∧
        ∃ w, inflatedOf name kw = some w ∧ w.Valid)
  | none => False

/-- a base of a truncation -/
def GoodTruncated (pm : List String) : ZDist → Prop
  | .family name (some kw) => ∃ f, GoodFamily pm name kw f ∧ Plain f
  | _ => False

/-- a base of a hurdle: PyMC needs a class for the two together -/
def GoodHurdle (pm : List String) : ZDist → Prop
  | .family name (some kw) => "Hurdle" ++ name ∈ pm ∧ ∃ f, famOf name kw = some f ∧ f.Valid ∧ Plain f
  | _ => False

mutual
/-- the objects covered -/
def Good (pm : List String) : ZDist → Prop
  | .family name kw => GoodOwn pm name kw
  | .censored base lower upper => "Censored" ∈ pm ∧ Good pm base ∧ lower ≠ ⊤ ∧ upper ≠ ⊥
  | .truncated base lower upper => "Truncated" ∈ pm ∧ GoodTruncated pm base ∧ lower ≠ ⊤ ∧ upper ≠ ⊥
  | .hurdle base _ => GoodHurdle pm base
  | .mixture comps _ => "Mixture" ∈ pm ∧ comps ≠ [] ∧ GoodAll pm comps

def GoodAll (pm : List String) : List ZDist → Prop
  | [] => True
  | d :: ds => Good pm d ∧ GoodAll pm ds
end

end Verif.Spec.FromPymc
