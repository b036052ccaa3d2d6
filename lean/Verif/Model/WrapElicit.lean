import Verif.Model.Wrapper
import Verif.Model.Optim

/-!
# maxent, quartile, match_moments and match_quantiles for Truncated, Censored and Hurdle

The objects of `Model/Wrapper` with the attributes that `_parametrization` sets on them, and what the elicitation
functions do with such an object: split the parameters (`get_fixed_params` reads the attributes), match moments, try
points, set the object to the point found.  The numerical search is external: the points tried and the point found are
inputs.  A parameter of the base is a real number or `None`, a bound of the modifier may be infinite.
-/

namespace Verif.WrapElicit
open Verif Verif.Param Verif.Wrapper Verif.Optim

/-- `attr n = none`: there is no attribute `n`; `some none`: it is `None` -/
structure WObj where
  base : Obj
  attr : String → Option (Option EReal)
  names : List String
  params : List (Option EReal)
  frozen : Bool

/-- a number of the base as a value of the modifier -/
noncomputable def wide (v : Option ℝ) : Option EReal := v.map fun r : ℝ => (r : EReal)

/-- `setattr` for several names -/
def setAttrs (a : String → Option (Option EReal)) (kvs : List (String × Option EReal)) :
    String → Option (Option EReal) :=
  kvs.foldl (fun a kv => Function.update a kv.1 (some kv.2)) a

/-- censored.py:79-83: the bounds are moved into the support of the base; the other modifiers leave them alone -/
noncomputable def cutBounds (k : Kind) (supp : EReal × EReal) (own : String → Option EReal)
    (a : String → Option (Option EReal)) : String → Option (Option EReal) :=
  match k with
  | .censored => setAttrs a [("lower", some (max supp.1 ((own "lower").getD ⊥))),
      ("upper", some (min supp.2 ((own "upper").getD ⊤)))]
  | _ => a

/-- `_parametrization` (truncated.py:48-80, censored.py:51-84, hurdle.py:55-75).  `supp` is the support of the base. -/
noncomputable def param (k : Kind) (f : Family) (supp : Obj → EReal × EReal) (own : String → Option EReal)
    (kw : List (String × Option ℝ)) (w : WObj) : Except Err WObj := do
  let kwargs := kwargsOf w.base kw
  let distParams := kwargs.map Prod.snd
  let extra := ownArgs k own
  let attr := setAttrs (setAttrs w.attr (kwargs.map fun p => (p.1, wide p.2))) extra
  let params := distParams.map wide ++ extra.map Prod.snd
  let names := w.base.names ++ extra.map Prod.fst
  if allNotNone distParams then
    if kwargs.any fun p => !(Spec.args f).contains p.1 then .error .typeError
    else do
      let base ← parametrize f (fun n => (kwargs.lookup n).getD none) w.base
      return ⟨base, cutBounds k (supp base) own attr, names, params, true⟩
  else return ⟨w.base, cutBounds k (supp w.base) own attr, names, params, w.frozen⟩

/-- `Truncated(dist, lower, upper, **kwargs)` and the others (truncated.py:43-46, censored.py:46-49, hurdle.py:50-53) -/
noncomputable def construct (k : Kind) (f : Family) (supp : Obj → EReal × EReal) (own : String → Option EReal)
    (kw : List (String × Option ℝ)) (base : Obj) : Except Err WObj :=
  param k f supp own kw ⟨base, fun _ => none, [], [], false⟩

/-- `get_fixed_params` (optimization.py:517-526): `getattr` of a missing attribute raises -/
def getFixed (w : WObj) : Except Err (List ℕ × List EReal) :=
  if w.names.all fun n => (w.attr n).isSome then
    .ok (w.names.zipIdx.foldl (splitStep fun n => (w.attr n).getD none) ([], []))
  else .error .attributeError

/-- `_fit_moments` (truncated.py:155-157, censored.py:217-219, hurdle.py:172-174); `fit` is `_fit_moments` of the base -/
noncomputable def fitMoments (k : Kind) (f : Family) (supp : Obj → EReal × EReal) (fit : Obj → Except Err Obj)
    (w : WObj) : Except Err WObj := do
  let base ← fit w.base
  param k f supp (fun _ => none) (base.names.zip (base.params.getD [])) { w with base := base }

/-- names of the modifier's own arguments -/
noncomputable def ownKeys (k : Kind) : List String := (ownArgs k fun _ => none).map Prod.fst

/-- `dist._parametrization(**params)`: the own arguments of the modifier are bound by name, the others are `kwargs`.
The values of the base are finite, so nothing is lost by `toReal`. -/
noncomputable def callParam (k : Kind) (f : Family) (supp : Obj → EReal × EReal) (kvs : List (String × Option EReal))
    (w : WObj) : Except Err WObj :=
  param k f supp (fun n => if n ∈ ownKeys k then (kvs.reverse.lookup n).getD none else none)
    ((kvs.filter fun p => p.1 ∉ ownKeys k).map fun p => (p.1, p.2.map EReal.toReal)) w

/-- one point: `dist._parametrization(**get_params(dist, x, none_idx, fixed))` (optimization.py:15-16, 27-28, 72-73) -/
noncomputable def applyPoint (k : Kind) (f : Family) (supp : Obj → EReal × EReal) (split : List ℕ × List EReal)
    (x : List ℝ) (w : WObj) : Except Err WObj := do
  let kvs ← getParams w.names (x.map fun r : ℝ => (r : EReal)) split.1 split.2
  callParam k f supp (kvs.map fun p => (p.1, some p.2)) w

/-- a point tried during the search; the search of maxent goes on after an error (optimization.py:49-57).  What a failing
call has changed before it fails is not followed. -/
noncomputable def tryPoint (k : Kind) (f : Family) (supp : Obj → EReal × EReal) (split : List ℕ × List EReal)
    (w : WObj) (x : List ℝ) : WObj :=
  match applyPoint k f supp split x w with
  | .ok w' => w'
  | .error _ => w

/-- What maxent, quartile, match_moments and match_quantiles do with the object once the request is accepted
(maxent.py:139-155, quartile.py:116-124, optimization.py:37-44, 71-73, 93-160): `None` among the start values is a
TypeError (maxent multiplies it by 0.75, quartile converts it to a float; for match_moments and match_quantiles, where the
first evaluation fails with it, the kind of error is a simplification). -/
noncomputable def elicit (k : Kind) (f : Family) (supp : Obj → EReal × EReal) (fit : Obj → Except Err Obj)
    (tried : List (List ℝ)) (x : List ℝ) (w : WObj) : Except Err WObj := do
  let split ← getFixed w
  let w ← fitMoments k f supp fit w
  if split.1.any fun i => (w.params.getD i none).isNone then .error .typeError
  else applyPoint k f supp split x (tried.foldl (tryPoint k f supp split) w)

/-- maxent and quartile with `fixed_params` and the test that something is free (maxent.py:99-100, 127-128,
quartile.py:94-95, 111-112); `check` are the other tests of the request -/
noncomputable def request (k : Kind) (f : Family) (supp : Obj → EReal × EReal) (fit : Obj → Except Err Obj)
    (check : WObj → Except Err Unit) (fixedParams : Option (List (String × Option EReal))) (tried : List (List ℝ))
    (x : List ℝ) (w : WObj) : Except Err WObj := do
  let w ← match fixedParams with
    | none => Except.ok w
    | some kvs => callParam k f supp kvs w
  if w.frozen then .error .valueError
  else do
    check w
    elicit k f supp fit tried x w

/-- `params_dict` -/
def WObj.paramsDict (w : WObj) (n : String) : Option EReal := ((w.names.zip w.params).lookup n).getD none

/-- `get_fixed_params` of a mixture: its attributes are not named after the parameters of the components, except
`weights` (mixture.py:38-76) -/
def mixGetFixed (names : List (List String)) : Except Err Unit :=
  if (names.flatten ++ ["weights"]).all (· = "weights") then .ok () else .error .attributeError

end Verif.WrapElicit
