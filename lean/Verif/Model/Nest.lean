import Verif.Model.Wrapper

/-!
# Truncated, Censored and Hurdle around a modified distribution

`Model/Wrapper` has the modifiers around a family.  Here the wrapped distribution may itself be a Truncated, Censored or
Hurdle, to any depth, or a Mixture.  Recorded are the parameters each object holds; the law of a nested object is in
`Model/Modifier`.  The cut of the bounds of Censored to the support (censored.py:79-83) is left out.
-/

namespace Verif.Nest
open Verif Verif.Wrapper

/-- the value of a parameter: a number (bounds may be infinite), or the weights of a Mixture -/
inductive Val
  | num (x : EReal)
  | array (xs : List ℝ)

/-- keyword arguments, in order -/
abbrev Kw := List (String × Option Val)

/-- The innermost distribution, a family or a Mixture: `param_names`, the keywords its `_parametrization` accepts, and the
value of a parameter after a call without its keyword, given the value before: `None` for most (zi_poisson.py:53-60,
triangular.py:58-66), infinite for the bounds of TruncatedNormal (truncatednormal.py:71-74), the old one for the bounds of
BetaScaled (betascaled.py:70-74).  A Mixture accepts only `weights` (mixture.py:48) but lists the parameters of its
components as well (mixture.py:57-64). -/
structure Leaf where
  names : List String
  accepts : List String
  missing : String → Option Val → Option Val

/-- one modifier: its own arguments as stored (lower and upper, or psi), `param_names`, `params`, `is_frozen` -/
structure Layer where
  kind : Kind
  own : List (Option Val)
  names : List String
  params : List (Option Val)
  frozen : Bool

/-- names of the modifier's own arguments: truncated.py:48, censored.py:51, hurdle.py:55 -/
def keys : Kind → List String
  | .truncated => ["lower", "upper"]
  | .censored => ["lower", "upper"]
  | .hurdle => ["psi"]

/-- truncated.py:60-68, censored.py:63-71: bounds that are `None` become infinite; hurdle.py:67: psi stays `None` -/
noncomputable def fill (k : Kind) (n : String) (v : Option Val) : Option Val :=
  match k, v with
  | .hurdle, v => v
  | _, some v => some v
  | _, none => if n = "lower" then some (.num ⊥) else some (.num ⊤)

/-- `d[k] = v` -/
def put (d : Kw) (k : String) (v : Option Val) : Kw :=
  if d.any fun p => p.1 = k then d.map fun p => if p.1 = k then (k, v) else p else d ++ [(k, v)]

/-- `dict(pairs)`: the last value of a repeated name counts -/
def dict (kvs : Kw) : Kw := kvs.foldl (fun d p => put d p.1 p.2) []

/-- `dist.param_names` of the distribution with the given modifiers, outermost first -/
def namesOf (lf : Leaf) : List Layer → List String
  | [] => lf.names
  | L :: _ => L.names

/-- `dist.params`.  Some families have no `params` before they are complete; the values are then read as `None`
(truncated.py:51-54), which for an incomplete distribution has the same effect. -/
def paramsOf (vals : List (Option Val)) : List Layer → List (Option Val)
  | [] => vals
  | L :: _ => L.params

/-- `dist._parametrization(**kw)` for a distribution inside the modifiers `layers`, outermost first; `vals` are the values
of the innermost one, which is parametrised by the names it has (`Model/Param` has the other parametrisations).
truncated.py:48-80, censored.py:51-84, hurdle.py:55-75 -/
noncomputable def reparam (lf : Leaf) : List Layer → List (Option Val) → Kw → Except Err (List Layer × List (Option Val))
  | [], vals, kw =>
    if kw.all fun p => p.1 ∈ lf.accepts then
      .ok ([], (lf.names.zip vals).map fun p => (kw.lookup p.1).join.or (lf.missing p.1 p.2))
    else .error .typeError
  | L :: Ls, vals, kw =>
    let own := (keys L.kind).map fun n => fill L.kind n (kw.lookup n).join
    let rest := kw.filter fun p => p.1 ∉ keys L.kind
    let kwargs := if rest.isEmpty then dict ((namesOf lf Ls).zip (paramsOf vals Ls)) else rest
    let distParams := kwargs.map Prod.snd
    let names := namesOf lf Ls ++ keys L.kind
    if distParams.all Option.isSome then
      match reparam lf Ls vals kwargs with
      | .ok r => .ok (⟨L.kind, own, names, distParams ++ own, true⟩ :: r.1, r.2)
      | .error e => .error e
    else .ok (⟨L.kind, own, names, distParams ++ own, L.frozen⟩ :: Ls, vals)

/-- `Truncated(dist, lower, upper)`, `Censored(dist, lower, upper)`, `Hurdle(dist, psi)`: truncated.py:43-46,
censored.py:46-49, hurdle.py:50-53 -/
noncomputable def wrap (lf : Leaf) (k : Kind) (own : List (Option Val)) (d : List Layer × List (Option Val)) :
    Except Err (List Layer × List (Option Val)) :=
  reparam lf (⟨k, [], [], [], false⟩ :: d.1) d.2 ((keys k).zip own)

/-- an expression such as `Hurdle(Truncated(Gamma(2, 1), 1, 5), 0.3)`, the modifiers outermost first -/
noncomputable def build (lf : Leaf) (vals : List (Option Val)) :
    List (Kind × List (Option Val)) → Except Err (List Layer × List (Option Val))
  | [] => .ok ([], vals)
  | w :: ws =>
    match build lf vals ws with
    | .ok d => wrap lf w.1 w.2 d
    | .error e => .error e

end Verif.Nest
