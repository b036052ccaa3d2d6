import Verif.Basics
import Verif.Model.Explorer

/-!
# From samples to priors: engine, families of the model, alternatives

ppls/agnostic.py:37-105 and 120-125, ppls/pymc_io.py:21-67 and 102-132, ppls/bambi_io.py:12-16,
internal/distribution_helper.py:256-266.  The numbers (fits, samples) are not modelled; which objects
are fitted, in which order, and which errors occur are.
-/

namespace Verif.Posterior
open Verif

/-- a free random variable: its name, `owner.op.name` (may be empty or `None`), `str(owner.op)` -/
structure RV where
  name : String
  opName : String
  opText : List Char

/-- `text.split("RV", 1)[0]` -/
def beforeRV : List Char → List Char
  | 'R' :: 'V' :: _ => []
  | c :: cs => c :: beforeRV cs
  | [] => []

/-- `.lower()` of an ASCII text -/
def lower (l : List Char) : List Char := l.map Char.toLower

/-- pymc_io.py:126-128 -/
def RV.distName (r : RV) : List Char :=
  if r.opName ≠ "" then r.opName.toList else lower (beforeRV r.opText)

/-- pymc_io.py:115-119: the classes that can be recognised -/
def recognised : List (List Char) :=
  Explorer.distNames.filter fun n =>
    n ∉ ["Truncated".toList, "Censored".toList, "Hurdle".toList, "Mixture".toList]

/-- `dict(zip(keys, values))[key]`: of two equal keys the last one counts -/
def dictGet {α : Type} (kv : List (List Char × α)) (key : List Char) : Except Err α :=
  match kv.reverse.lookup key with
  | some v => .ok v
  | none => .error .keyError

/-- an object: its class and its identity -/
structure Obj where
  cls : List Char
  id : ℕ
  deriving DecidableEq

/-- pymc_io.py:120-132; `n` counts the objects made so far, every `copy` is a new one.  Names of
variables of a model are distinct, so the dictionary is the list of its entries. -/
def extractFrom (n : ℕ) : List RV → Except Err (List (String × Obj))
  | [] => .ok []
  | r :: rs => do
    let cls ← dictGet (recognised.map fun c => (lower c, c)) r.distName
    let rest ← extractFrom (n + 1) rs
    return (r.name, ⟨cls, n⟩) :: rest

/-- the fresh instances of `get_distributions` come first -/
def extract (rvs : List RV) : Except Err (List (String × Obj)) := extractFrom recognised.length rvs

/-- what may be passed as `new_families`; the user's objects carry their identities -/
inductive Families
  | none
  | auto
  | list (l : List Obj)
  | dict (d : List (String × List Obj))

/-- a candidate for a fit: an instance, or a class -/
inductive Cand
  | inst (o : Obj)
  | cls (c : List Char)
  deriving DecidableEq

/-- the class name of a candidate as `x.__class__.__name__` sees it -/
def Cand.className : Cand → List Char
  | .inst o => o.cls
  | .cls _ => "type".toList

/-- the entry of the user's dictionary -/
def entry (d : List (String × List Obj)) (var : String) : List Obj := (d.reverse.lookup var).getD []

/-- agnostic.py:87-104: the candidates for one variable; `n` is the identity the next new object
gets -/
def candidates (f : Families) (var : String) (dist : Obj) (n : ℕ) : List Cand :=
  match f with
  | .none => [.inst dist]
  | .auto =>
    .inst dist :: (([⟨"Normal".toList, n⟩, ⟨"HalfNormal".toList, n + 1⟩,
      ⟨"Gamma".toList, n + 2⟩] : List Obj).filter fun a => dist.cls ≠ a.cls).map .inst
  | .list l => .inst dist :: l.map .inst
  | .dict d => .inst dist :: (entry d var).map .inst

/-- pymc_io.py:53-67: the same for `ppe` -/
def setFamilies (f : Families) (var : String) (dist : Obj) : List Cand :=
  match f with
  | .none => [.inst dist]
  | .auto =>
    .inst dist :: ([.cls "Normal".toList, .cls "HalfNormal".toList, .cls "Gamma".toList]).filter
      fun a => dist.cls ≠ a.className
  | .list l => .inst dist :: l.map .inst
  | .dict d => .inst dist :: (entry d var).map .inst

/-- The loops of mle.py:73-82 and optimization.py:416-450 over the candidates, in order: Categorical
is refused before any fit; fitting a class is a `TypeError` (`Normal._check_endpoints(x_min, x_max,
raise_error=False)` lacks an argument); an instance is fitted, which may fail. -/
def fitLoop (fits : Obj → Except Err Unit) (cands : List Cand) : Except Err (List Obj) :=
  if cands.any (fun c => c.className = "Categorical".toList) then .error .valueError
  else cands.mapM fun c => match c with
    | .cls _ => .error .typeError
    | .inst o => do
      fits o
      return o

/-- what the engine is recognised by: `getattr(model, attr, False)` as a truth value -/
structure Model where
  basicRVs : Bool
  formula : Bool
  /-- `free_RVs`, for a PyMC model -/
  freeRVs : Option (List RV)
  /-- `free_RVs` of the PyMC model a Bambi model builds -/
  backend : Option (List RV)

/-- agnostic.py:120-125 -/
def getEngine (m : Model) : String :=
  if m.basicRVs then "pymc" else if m.formula then "bambi" else "preliz"

/-- agnostic.py:64-80: the kind of text returned and the fitted objects.  `fit` stands for
`back_fitting_idata`. -/
def posteriorToPrior (fit : List (String × Obj) → Except Err (List (String × Obj))) (engine : String)
    (m : Model) : Except Err (String × List (String × Obj)) := do
  let engine := if engine = "auto" then getEngine m else engine
  let rvs ← match (if engine = "bambi" then m.backend else m.freeRVs) with
    | some rvs => .ok rvs
    | none => .error .attributeError
  let dists ← extract rvs
  let new ← fit dists
  if engine = "bambi" then .ok ("bambi", new)
  else if engine = "pymc" then .ok ("pymc", new)
  else .error .nameError

end Verif.Posterior
