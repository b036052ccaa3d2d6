import Verif.Model.Extra
import Mathlib.Data.EReal.Basic

/-!
# The text boxes of predictive_explorer

ppls/agnostic.py:128-175, 214-223 (`parse_function_for_pred_textboxes`, `parse_arguments`, `match_preliz_dist` for PreliZ
and PyMC models), internal/plot_helper.py:391-419 (`get_textboxes`).

Texts are lists of characters.  Which characters count as word characters (`\\w`) and as white space are parameters.
The regular expressions are modelled as the matches Python's backtracking finds.  The parameter names of the function
are identifiers and there is at least one.
-/

namespace Verif.Explorer
open Verif Verif.Extra

/-- distributions/__init__.py:52-111: `__all__` -/
def distNames : List (List Char) :=
  (["AsymmetricLaplace", "Beta", "BetaScaled", "Cauchy", "ChiSquared", "ExGaussian", "Exponential", "Gamma",
   "Gumbel", "HalfCauchy", "HalfNormal", "HalfStudentT", "InverseGamma", "Kumaraswamy", "Laplace", "Logistic",
   "LogLogistic", "LogNormal", "LogitNormal", "Moyal", "Normal", "Pareto", "Rice", "SkewNormal",
   "SkewStudentT", "StudentT", "Triangular", "TruncatedNormal", "Uniform", "VonMises", "Wald", "Weibull",
   "Bernoulli", "BetaBinomial", "Binomial", "Categorical", "DiscreteUniform", "DiscreteWeibull", "Geometric",
   "HyperGeometric", "NegativeBinomial", "Poisson", "ZeroInflatedBinomial", "ZeroInflatedNegativeBinomial",
   "ZeroInflatedPoisson", "Dirichlet", "MvNormal", "Mixture", "Truncated", "Censored",
   "Hurdle"] : List String).map String.toList

/-- agnostic.py:215-216: comments removed -/
def stripComments : List Char → List Char
  | [] => []
  | c :: cs => if c = '#' then skip cs else c :: stripComments cs
where
  /-- the rest of a comment -/
  skip : List Char → List Char
    | [] => []
    | c :: cs => if c = '\n' then c :: stripComments cs else skip cs

/-- `([^()]*(?:\([^()]*\)[^()]*)*)\)`: arguments with brackets nested at most once, up to the closing bracket, and what
follows it; `inside` tells whether a nested bracket is open -/
def argsAt (inside : Bool) : List Char → Option (List Char × List Char)
  | [] => none
  | c :: cs =>
    if c = ')' then
      if inside then (argsAt false cs).map fun p => (c :: p.1, p.2) else some ([], cs)
    else if c = '(' then
      if inside then none else (argsAt true cs).map fun p => (c :: p.1, p.2)
    else (argsAt inside cs).map fun p => (c :: p.1, p.2)

/-- `.*?\(` and the arguments: the first opening bracket on the line for which they can be found -/
def afterName : List Char → Option (List Char × List Char)
  | [] => none
  | c :: cs =>
    if c = '(' then
      match argsAt false cs with
      | some p => some p
      | none => afterName cs
    else if c = '\n' then none
    else afterName cs

/-- a distribution name at the beginning of the text: the first in the order of `__all__` for which the rest matches -/
def nameAt (src : List Char) : Option (List Char × List Char × List Char) :=
  distNames.findSome? fun n =>
    if n.isPrefixOf src then (afterName (src.drop n.length)).map fun p => (n, p.1, p.2) else none

theorem argsAt_length (src : List Char) : ∀ (b : Bool) p, argsAt b src = some p → p.2.length < src.length := by
  induction src with
  | nil => intro b p h; simp [argsAt] at h
  | cons c cs ih =>
    intro b p h
    have key : ∀ b', (argsAt b' cs).map (fun p => (c :: p.1, p.2)) = some p → p.2.length < (c :: cs).length := by
      intro b' h
      cases h1 : argsAt b' cs with
      | none => rw [h1] at h; simp at h
      | some q =>
        rw [h1] at h
        simp only [Option.map_some, Option.some.injEq] at h
        have := ih b' q h1
        rw [← h]
        simp only [List.length_cons]
        omega
    unfold argsAt at h
    split_ifs at h
    · exact key _ h
    · simp only [Option.some.injEq] at h
      rw [← h]; simp
    · exact key _ h
    · exact key _ h

theorem afterName_length (src : List Char) : ∀ p, afterName src = some p → p.2.length < src.length := by
  induction src with
  | nil => intro p h; simp [afterName] at h
  | cons c cs ih =>
    intro p h
    unfold afterName at h
    simp only [List.length_cons]
    split_ifs at h
    · cases h1 : argsAt false cs with
      | none => rw [h1] at h; have := ih p h; omega
      | some q =>
        rw [h1] at h
        simp only [Option.some.injEq] at h
        subst h
        have := argsAt_length cs false q h1
        omega
    · have := ih p h; omega

theorem nameAt_length (src : List Char) (n a r : List Char) (h : nameAt src = some (n, a, r)) :
    r.length < src.length := by
  unfold nameAt at h
  obtain ⟨m, -, hm⟩ := List.exists_of_findSome?_eq_some h
  split_ifs at hm
  cases h1 : afterName (src.drop m.length) with
  | none => rw [h1] at hm; simp at hm
  | some p =>
    rw [h1] at hm
    simp only [Option.map_some, Option.some.injEq, Prod.mk.injEq] at hm
    have := afterName_length _ p h1
    rw [hm.2.2, List.length_drop] at this
    omega

/-- agnostic.py:218-223: all matches, name and arguments.  The leading `.*?` lets a match begin anywhere, so the
next match is at the first place where a name and arguments can be read. -/
def findAll (src : List Char) : List (List Char × List Char) :=
  match h : nameAt src with
  | some (n, a, r) =>
    have := nameAt_length src n a r h
    (n, a) :: findAll r
  | none =>
    match src with
    | [] => []
    | _ :: cs => findAll cs
termination_by src.length

/-- the engines -/
inductive Engine
  | preliz
  | pymc
  deriving DecidableEq

variable (word space : Char → Bool)

/-- `\b` at the end of a name -/
def ends : List Char → Bool
  | [] => true
  | c :: _ => !word c

/-- agnostic.py:131-132, 165: the first name of the function's parameters that stands in the text as a word;
`before` tells whether a word character precedes the text -/
def search (vars : List (List Char)) (before : Bool) : List Char → Option (List Char)
  | [] => none
  | c :: cs =>
    match vars.find? fun v => !before && v.isPrefixOf (c :: cs) && ends word ((c :: cs).drop v.length) with
    | some v => some v
    | none => search vars (word c) cs

/-- `str.isidentifier` -/
def isIdentifier (l : List Char) : Bool :=
  match l with
  | [] => false
  | c :: _ => l.all word && !c.isDigit

/-- `split("**")`: the pieces -/
def splitPower : List Char → List (List Char)
  | [] => [[]]
  | [c] => [[c]]
  | c :: d :: cs =>
    if c = '*' ∧ d = '*' then [] :: splitPower cs
    else
      match splitPower (d :: cs) with
      | [] => [[c]]
      | h :: t => (c :: h) :: t

/-- agnostic.py:167-174: what is applied to the parameter -/
def funcOf (item : List Char) : Option (List Char) :=
  if isIdentifier word item then none
  else
    match splitPower item with
    | _ :: p :: _ => some (strip space p)
    | _ => some (((splitChar '.' ((splitChar '(' item).headD [])).getLast?).getD [])

/-- a use of a parameter: what is applied, the parameter, the position of the argument -/
abbrev Use := Option (List Char) × List Char × Int

/-- agnostic.py:158-175, with the splitting of line 146 -/
def parseArguments (vars : List (List Char)) (engine : Engine) (args : List Char) : List Use :=
  (((splitChar ',' args).map (strip space)).zipIdx).filterMap fun (item, idx) =>
    (search word vars false item).map fun v =>
      (funcOf word space item, v, (idx : Int) - if engine = .pymc then 1 else 0)

/-- a parameter of a distribution with the values of `init_vals` (distribution_helper.py:199-253): starting value and
`params_support` -/
structure Slot where
  value : ℝ
  lower : EReal
  upper : EReal

/-- what is remembered for a parameter of the function: slots of the distribution, position, function -/
abbrev Known := List Slot × Int × Option (List Char)

/-- agnostic.py:128-155.  `slots` are the distributions `dist(**init_vals[name])`; building one may fail. -/
def parseCalls (slots : List Char → Except Err (List Slot)) (vars : List (List Char)) (engine : Engine) :
    List (List Char × List Char) → (List Char → Option Known) → Except Err (List Char → Option Known)
  | [], m => .ok m
  | (name, args) :: rest, m => do
    let m ← (parseArguments word space vars engine args).foldlM
      (fun (m : List Char → Option Known) u => do
        let s ← slots name
        return Function.update m u.2.1 (some (s, u.2.2, u.1))) m
    parseCalls slots vars engine rest m

/-- agnostic.py:128-155 -/
def parse (slots : List Char → Except Err (List Slot)) (vars : List (List Char)) (engine : Engine) (source : List Char) :
    Except Err (List Char → Option Known) :=
  parseCalls word space slots vars engine (findAll (stripComments source)) fun _ => none

/-- `func.replace(".", "", 1).isdigit()` and `float(func) % 2 == 0` (plot_helper.py:408-409) -/
def evenPower (f : List Char) : Bool :=
  let whole := f.takeWhile (· ≠ '.')
  let frac := (f.dropWhile (· ≠ '.')).drop 1
  (whole ++ frac) ≠ [] && (whole ++ frac).all Char.isDigit &&
    (match whole.getLast? with
      | none => true
      | some c => (c.toNat - '0'.toNat) % 2 = 0) && frac.all (· = '0')

/-- plot_helper.py:400-415: the bounds shown -/
noncomputable def shown (func : Option (List Char)) (lower upper : EReal) : EReal × EReal :=
  open Classical in
  match func with
  | none => (lower, upper)
  | some f =>
    let lo := if lower = ((eps : ℝ) : EReal) then
        if f ∈ ["exp".toList, "abs".toList, "expit".toList, "logistic".toList] then ⊥
        else if f = "log".toList then ((1 : ℝ) : EReal)
        else if evenPower f then ⊥
        else lower
      else lower
    let lo := if upper = ((1 - eps : ℝ) : EReal) ∧ f ∈ ["expit".toList, "logistic".toList] then ⊤ else lo
    (lo, upper)

/-- a text box: value and bounds shown in its description -/
structure TextBox where
  value : ℝ
  lower : EReal
  upper : EReal

/-- `tuple[idx]` -/
def pyGet (l : List Slot) (i : Int) : Except Err Slot :=
  let j := if i < 0 then i + l.length else i
  if j < 0 then .error .indexError
  else
    match l[j.toNat]? with
    | some s => .ok s
    | none => .error .indexError

/-- plot_helper.py:393-419: the text box of one parameter of the function; `default` is its default value when that is a
number -/
noncomputable def textBox (m : List Char → Option Known) (var : List Char) (default : Option ℝ) : Except Err TextBox :=
  match m var with
  | none => .error .keyError
  | some (slots, idx, func) => do
    let s ← pyGet slots idx
    let b := shown func s.lower s.upper
    return { value := default.getD s.value, lower := b.1, upper := b.2 }

end Verif.Explorer
