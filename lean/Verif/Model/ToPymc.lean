import Verif.Model.FromPymc

/-!
# Conversion to PyMC and Bambi: preliz/distributions/distributions.py:482-566

The result is the expression in terms of PyMC classes that `to_pymc` evaluates.  `pm` is the list of
names in `pymc.distributions`, `inModel` whether a model context is active.  The name of the variable and
the keyword arguments of the caller (shape, dims) are passed on unchanged to the outermost call and are
left out.
-/

namespace Verif.Ppl
open Verif

/-- a PreliZ object, by the attributes `to_pymc` reads: class, `params_dict` (`none` if not frozen), the
bounds in `params_dict` (the last ones: truncated.py:70-71, censored.py:73), weights, components -/
inductive ZDist
  | family (name : String) (params : Option (List (String × ℝ)))
  | censored (base : ZDist) (lower upper : EReal)
  | truncated (base : ZDist) (lower upper : EReal)
  | mixture (comps : List ZDist) (weights : List ℝ)
  | hurdle (base : ZDist) (psi : ℝ)

/-- an expression in terms of PyMC classes -/
inductive Call
  | family (name : String) (kw : List (String × ℝ))
  | censored (base : Call) (lower upper : EReal)
  | truncated (base : Call) (lower upper : EReal)
  | mixture (weights : List ℝ) (comps : List Call)

/-- `__class__.__name__` -/
def ZDist.className : ZDist → String
  | .family name _ => name
  | .censored .. => "Censored"
  | .truncated .. => "Truncated"
  | .mixture .. => "Mixture"
  | .hurdle .. => "Hurdle"

/-- `is_frozen` of a base and its components -/
def ZDist.frozen : ZDist → Bool
  | .family _ params => params.isSome
  | .censored base _ _ => base.frozen
  | .truncated base _ _ => base.frozen
  | .mixture _ _ => true
  | .hurdle base _ => base.frozen

/-- `getattr(pm_dists, name)` -/
def getClass (pm : List String) (name : String) : Except Err String :=
  if name ∈ pm then .ok name else .error .attributeError

/-- `params_dict` of a hurdle: those of the base, then psi (hurdle.py:67-68).  Only the bases for which
PyMC has a class get here; the others are not families. -/
def hurdleParams (base : ZDist) (psi : ℝ) : Except Err (List (String × ℝ)) :=
  match base with
  | .family _ (some kw) => .ok (kw ++ [("psi", psi)])
  | _ => .error .typeError

/-- distributions.py:526 and 535-538: the class of a base or component inside a model is called with its
`params_dict`; the classes of modifiers have required positional arguments -/
def baseInModel (pm : List String) (d : ZDist) : Except Err Call :=
  match getClass pm d.className with
  | .error e => .error e
  | .ok name =>
    match d with
    | .family _ (some kw) => .ok (.family name kw)
    | _ => .error .typeError

mutual
/-- distributions.py:495-544 -/
def toPymc (pm : List String) (inModel : Bool) : ZDist → Except Err Call
  | .family name params =>
    match getClass pm name with
    | .error e => .error e
    | .ok name =>
      match params with
      | none => .error .typeError
      | some kw => .ok (.family name kw)
  | .hurdle base psi =>
    match getClass pm ("Hurdle" ++ base.className) with
    | .error e => .error e
    | .ok name =>
      match hurdleParams base psi with
      | .error e => .error e
      | .ok kw => .ok (.family name kw)
  | .truncated base lower upper =>
    match getClass pm "Truncated" with
    | .error e => .error e
    | .ok _ =>
      match (if inModel then baseInModel pm base else toPymc pm false base) with
      | .error e => .error e
      | .ok c => if base.frozen then .ok (.truncated c lower upper) else .error .typeError
  | .censored base lower upper =>
    match getClass pm "Censored" with
    | .error e => .error e
    | .ok _ =>
      match (if inModel then baseInModel pm base else toPymc pm false base) with
      | .error e => .error e
      | .ok c => if base.frozen then .ok (.censored c lower upper) else .error .typeError
  | .mixture comps weights =>
    match getClass pm "Mixture" with
    | .error e => .error e
    | .ok _ =>
      match (if inModel then basesInModel pm comps else toPymcs pm comps) with
      | .error e => .error e
      | .ok cs => .ok (.mixture weights cs)

/-- distributions.py:518 -/
def toPymcs (pm : List String) : List ZDist → Except Err (List Call)
  | [] => .ok []
  | d :: ds =>
    match toPymc pm false d with
    | .error e => .error e
    | .ok c =>
      match toPymcs pm ds with
      | .error e => .error e
      | .ok cs => .ok (c :: cs)

/-- distributions.py:534-537 -/
def basesInModel (pm : List String) : List ZDist → Except Err (List Call)
  | [] => .ok []
  | d :: ds =>
    match baseInModel pm d with
    | .error e => .error e
    | .ok c =>
      match basesInModel pm ds with
      | .error e => .error e
      | .ok cs => .ok (c :: cs)
end

/-! ## to_bambi (distributions.py:549-566) -/

/-- a value in `params_dict` -/
inductive Val
  | num (x : EReal)
  | weights (w : List ℝ)

mutual
/-- names and values of the parameters, `none` if not frozen: those of the base, then the modifier's own
(censored.py:73, truncated.py:70-71, hurdle.py:67-68); those of all components, then the weights
(mixture.py:51-64) -/
noncomputable def ZDist.params : ZDist → Option (List (String × Val))
  | .family _ kw => kw.map fun l => l.map fun nv => (nv.1, .num nv.2)
  | .censored base lower upper => base.params.map (· ++ [("lower", .num lower), ("upper", .num upper)])
  | .truncated base lower upper => base.params.map (· ++ [("lower", .num lower), ("upper", .num upper)])
  | .hurdle base psi => base.params.map (· ++ [("psi", .num psi)])
  | .mixture comps weights => (ZDist.paramsList comps).map (· ++ [("weights", .weights weights)])

noncomputable def ZDist.paramsList : List ZDist → Option (List (String × Val))
  | [] => some []
  | d :: ds =>
    match d.params, ZDist.paramsList ds with
    | some a, some b => some (a ++ b)
    | _, _ => none
end

/-- distributions.py:563 with `params_dict` (117-121) as a map from names to values: of two equal names
the last one counts.  The Prior is its class name and its arguments. -/
noncomputable def toBambi (d : ZDist) : Except Err (String × (String → Option Val)) :=
  match d.params with
  | none => .error .typeError
  | some kv => .ok (d.className, fun key => kv.reverse.lookup key)

end Verif.Ppl
