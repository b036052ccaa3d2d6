import Verif.Model.Param
import Verif.Spec.Param
import Mathlib.Data.EReal.Basic

/-!
# `_parametrization` of Truncated, Censored and Hurdle

Keyword arguments are an ordered list, because the code stores their values in the order in which
they were given.  Bounds may be infinite, so the wrapper's parameter values are `EReal`.
-/

namespace Verif.Wrapper
open Verif Verif.Param

inductive Kind
  | truncated | censored | hurdle
  deriving DecidableEq

structure Wrapped where
  base : Obj
  names : List String
  params : List (Option EReal)
  frozen : Bool

/-- `None` bounds become infinite (truncated.py:60-68, censored.py:63-71); a `None` psi stays `None`
(hurdle.py:67).  `own` are the wrapper's own arguments: lower and upper, or psi. -/
noncomputable def ownArgs : Kind → (String → Option EReal) → List (String × Option EReal)
  | .truncated, own => [("lower", some ((own "lower").getD ⊥)), ("upper", some ((own "upper").getD ⊤))]
  | .censored, own => [("lower", some ((own "lower").getD ⊥)), ("upper", some ((own "upper").getD ⊤))]
  | .hurdle, own => [("psi", own "psi")]

/-- The keyword dictionary used: as given, or the base's own parameters (truncated.py:50-54) -/
def kwargsOf (base : Obj) (kw : List (String × Option ℝ)) : List (String × Option ℝ) :=
  if kw.isEmpty then
    match base.params with
    | some ps => base.names.zip ps
    | none => base.names.map fun n => (n, none)
  else kw

/-- truncated.py:48-80, censored.py:51-84, hurdle.py:55-75.  An unknown keyword makes the call of the
base's `_parametrization` a `TypeError`.  The attributes set on the wrapper and the supports are not
recorded; Censored later cuts the attributes `lower`, `upper` (not `params`) to the base support. -/
noncomputable def wrapParam (k : Kind) (f : Family) (own : String → Option EReal)
    (kw : List (String × Option ℝ)) (base : Obj) (frozen : Bool) : Except Err Wrapped := do
  let kwargs := kwargsOf base kw
  let distParams := kwargs.map Prod.snd
  let extra := ownArgs k own
  let params := distParams.map (Option.map fun r : ℝ => (r : EReal)) ++ extra.map Prod.snd
  let names := base.names ++ extra.map Prod.fst
  if allNotNone distParams then
    if kwargs.any fun p => !(Spec.args f).contains p.1 then .error .typeError
    else do
      let base' ← parametrize f (fun n => (kwargs.lookup n).getD none) base
      pure ⟨base', names, params, true⟩
  else pure ⟨base, names, params, frozen⟩

/-- `Truncated(dist, ...)` etc.: truncated.py:43-46; `is_frozen` starts false -/
noncomputable def wrap (k : Kind) (f : Family) (own : String → Option EReal)
    (kw : List (String × Option ℝ)) (base : Obj) : Except Err Wrapped :=
  wrapParam k f own kw base false

/-- `params_dict` of the wrapper: distributions/distributions.py:117-121 -/
def Wrapped.paramsDict (w : Wrapped) (n : String) : Option EReal :=
  ((w.names.zip w.params).lookup n).getD none

/-- `_fit_moments` of the wrappers after the base has been fitted (truncated.py:155-157,
censored.py:217-219, hurdle.py:172-174): the base's parameters are passed on, the wrapper's own
arguments are not. -/
noncomputable def refit (k : Kind) (f : Family) (fitted : Obj) (w : Wrapped) : Except Err Wrapped :=
  wrapParam k f (fun _ => none) (fitted.names.zip (fitted.params.getD [])) fitted w.frozen

end Verif.Wrapper
