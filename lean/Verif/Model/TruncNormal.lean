import Verif.Model.Optim

/-!
# TruncatedNormal: parameters, and how the fits treat its bounds

distributions/truncatednormal.py:53-88, 142-148; internal/optimization.py:13-90, 239-254, 416-450, 481-485.  Every value is an
extended real, since a missing bound is stored as an infinity.  NaN is not represented.
-/

namespace Verif.TruncNormal
open Verif Verif.Optim

/-- the arguments; `none` = `None` or not given -/
structure Args where
  mu : Option EReal
  sigma : Option EReal
  lower : Option EReal
  upper : Option EReal

/-- the object: attributes, `params`, `support`, `is_frozen` -/
structure Obj where
  mu : Option EReal
  sigma : Option EReal
  lower : EReal
  upper : EReal
  params : List (Option EReal)
  support : EReal × EReal
  frozen : Bool

/-- before `_parametrization` is called (distributions.py:26-28); the attributes are overwritten by it -/
noncomputable def blank : Obj := ⟨none, none, ⊥, ⊤, [], (⊥, ⊤), false⟩

/-- truncatednormal.py:79-88 -/
def update (mu sigma : EReal) (lower upper : Option EReal) (o : Obj) : Obj :=
  let lo := lower.getD o.lower
  let up := upper.getD o.upper
  ⟨some mu, some sigma, lo, up, [some mu, some sigma, some lo, some up], (lo, up), true⟩

/-- truncatednormal.py:57-77 -/
noncomputable def parametrize (a : Args) (o : Obj) : Obj :=
  let lo := a.lower.getD ⊥
  let up := a.upper.getD ⊤
  let o : Obj := ⟨a.mu, a.sigma, lo, up, [a.mu, a.sigma, a.lower, a.upper], (lo, up), o.frozen⟩
  match a.mu, a.sigma, a.lower, a.upper with
  | some m, some s, some l, some u => update m s (some l) (some u) o
  | _, _, _, _ => o

/-- truncatednormal.py:53-55 -/
noncomputable def construct (a : Args) : Obj := parametrize a blank

/-- `param_names` (truncatednormal.py:63) -/
def names : List String := ["mu", "sigma", "lower", "upper"]

/-- `getattr(distribution, name)` -/
def attr (o : Obj) : String → Option EReal
  | "mu" => o.mu
  | "sigma" => o.sigma
  | "lower" => some o.lower
  | "upper" => some o.upper
  | _ => none

/-- optimization.py:517-526 -/
def getFixedParams (o : Obj) : List ℕ × List EReal := names.zipIdx.foldl (splitStep (attr o)) ([], [])

/-- truncatednormal.py:142-144 -/
def fitMoments (mean sigma : EReal) (o : Obj) : Obj := update mean sigma none none o

/-- `_parametrization(**params)` -/
def fromKw (kvs : List (String × EReal)) : Args :=
  ⟨kvs.lookup "mu", kvs.lookup "sigma", kvs.lookup "lower", kvs.lookup "upper"⟩

/-- What maxent, quartile and the roulette fits do with the object (maxent.py:135-155, quartile.py:110-118,
optimization.py:407-409, 466-470): split the parameters, match moments, then set it to the point `x` the optimiser returns. -/
noncomputable def elicit (mean sigma : EReal) (x : List EReal) (o : Obj) : Except Err Obj := do
  let split := getFixedParams o
  let o := fitMoments mean sigma o
  let kvs ← getParams names x split.1 split.2
  return parametrize (fromKw kvs) o

/-- optimization.py:481-485 -/
def setBounds (lo hi : EReal) (o : Obj) : Obj := { o with lower := lo, upper := hi, support := (lo, hi) }

/-- `_fit_mle` up to the first evaluation of the likelihood (truncatednormal.py:146-148, optimization.py:244-245).  Between its
two lines `mu` and `sigma` are NaN; nothing reads them before they are set to the moments of the sample. -/
def mleStart (lo hi mean std : EReal) (o : Obj) : Obj :=
  fitMoments mean std { o with lower := lo, upper := hi, support := (lo, hi), frozen := true }

/-- `_fit_mle`: the optimiser starts at `params` and returns four numbers (optimization.py:247-249) -/
def fitMle (lo hi mean std : EReal) (x : List EReal → EReal × EReal × EReal × EReal) (o : Obj) : Obj :=
  let o := mleStart lo hi mean std o
  let r := x (o.params.filterMap id)
  update r.1 r.2.1 (some r.2.2.1) (some r.2.2.2) o

/-- one turn of `fit_to_sample` (optimization.py:420-423, 443): `none` when the data are outside -/
noncomputable def fitSample (lo hi mean std : EReal) (x : List EReal → EReal × EReal × EReal × EReal) (o : Obj) : Option Obj :=
  open Classical in
  let o := setBounds lo hi o
  if insideEndpoints o.support.1 o.support.2 lo hi then some (fitMle lo hi mean std x o) else none

end Verif.TruncNormal
