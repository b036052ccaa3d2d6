import Verif.Model.Interval

/-!
# `summary`, `hdi`, display names (distributions/distributions.py:42-51, 154-206, 451-479)
-/

namespace Verif.Summary
open Verif Verif.Modifier Verif.Interval

/-- the argument `fmt`: not a string, `"none"`, or a format string for floats, with the effect of
`float(f"{x:{fmt}}")`.  Strings that are not float formats are not modelled. -/
inductive Fmt
  | notString
  | none
  | fixed (r : EReal → EReal)

/-- `float(f"{x:{fmt}}")`; "none" is not a format specifier -/
def Fmt.apply : Fmt → EReal → Except Err EReal
  | .notString, _ => .error .typeError
  | .none, _ => .error .valueError
  | .fixed r, x => .ok (r x)

/-- what the methods need to know: the law, whether the class is Categorical, `is_frozen`, whether all
parameters are numbers (distribution_helper.py:38-65), mean, median and standard deviation, and the
interval found by `find_hdi` -/
structure Dist where
  base : Base
  categorical : Bool
  frozen : Bool
  scalar : Bool
  mean : EReal
  median : EReal
  std : EReal
  findHdi : ℝ → EReal × EReal

/-- `eti`, distributions.py:417-448, with its first checks (the rest is `Interval.eti`) -/
noncomputable def eti (d : Dist) (ciProb : ℝ) (mass : Option ℝ) (fmt : Fmt) :
    Except Err (EReal × EReal) :=
  if d.categorical then .error .valueError
  else match fmt with
    | .notString => .error .valueError
    | .none => Interval.eti d.base d.frozen d.scalar ciProb Option.none mass
    | .fixed r => Interval.eti d.base d.frozen d.scalar ciProb (some r) mass

/-- `hdi`, distributions.py:451-479 (the warning for mixtures is left out) -/
noncomputable def hdi (d : Dist) (ciProb : ℝ) (mass : Option ℝ) (fmt : Fmt) :
    Except Err (EReal × EReal) :=
  if d.categorical then .error .valueError
  else if !d.frozen then .error .valueError
  else match fmt with
    | .notString => .error .valueError
    | .none => if d.scalar then .ok (d.findHdi (mass.getD ciProb)) else .error .valueError
    | .fixed r =>
      if d.scalar then
        let lu := d.findHdi (mass.getD ciProb)
        .ok (if d.base.discrete then lu else (r lu.1, r lu.2))
      else .error .valueError

/-- the argument `interval`: None, a string, or a list of probabilities -/
inductive IntervalArg
  | default
  | kind (s : String)
  | probs (l : List ℝ)

structure Result where
  mean : EReal
  median : EReal
  std : EReal
  lower : EReal
  upper : EReal

/-- distributions.py:189-194.  A string that is neither "hdi" nor "eti" leaves the variable unbound:
`UnboundLocalError`, a `NameError`. -/
noncomputable def tails (d : Dist) (ciProb : ℝ) (mass : Option ℝ) (fmt : Fmt) :
    String ⊕ List ℝ → Except Err (List EReal)
  | .inr l => .ok (l.map d.base.ppf)
  | .inl s =>
    if s = "hdi" then
      match hdi d ciProb mass fmt with
      | .ok lu => .ok [lu.1, lu.2]
      | .error e => .error e
    else if s = "eti" then
      match eti d ciProb mass fmt with
      | .ok lu => .ok [lu.1, lu.2]
      | .error e => .error e
    else .error .nameError

/-- `c_int[i]` -/
def item (l : List EReal) (i : ℕ) : Except Err EReal :=
  match l[i]? with
  | some x => .ok x
  | none => .error .indexError

/-- `summary`, distributions.py:154-206; `ciKind` and `ciProb` are the configured values -/
noncomputable def summary (d : Dist) (ciKind : String) (ciProb : ℝ) (mass : Option ℝ)
    (interval : IntervalArg) (fmt : Fmt) : Except Err Result := do
  if d.categorical then throw .valueError
  let interval : String ⊕ List ℝ :=
    match interval with
    | .default => .inl ciKind
    | .kind s => .inl s
    | .probs l => .inr l
  if let .notString := fmt then throw .valueError
  if !d.frozen then throw .valueError
  if !d.scalar then throw .valueError
  let mean ← fmt.apply d.mean
  let median ← fmt.apply d.median
  let std ← fmt.apply d.std
  let c ← tails d ciProb mass fmt interval
  let lower ← item c 0
  if d.base.discrete then
    let upper ← item c 1
    return ⟨mean, median, std, lower, upper⟩
  else
    let lower ← fmt.apply lower
    let upper ← item c 1
    let upper ← fmt.apply upper
    return ⟨mean, median, std, lower, upper⟩

/-! ## Names -/

/-- the class of an object, and of what it wraps -/
inductive Class
  | plain (name : String)
  | modifier (name : String) (base : String)
  | mixture (components : List String)

/-- `"".join(dict.fromkeys(names))` -/
def joinDistinct (names : List String) : String := String.join names.eraseDups

/-- `_get_name`, distributions.py:42-48; `modifier` is one of Truncated, Censored, Hurdle -/
def getName : Class → String
  | .plain name => name
  | .modifier name base => name ++ base
  | .mixture comps => "Mixture" ++ joinDistinct comps

/-- the name of the named tuple, distributions.py:175-183 -/
def summaryName : Class → String
  | .plain name => name
  | .modifier name base =>
    if name = "Truncated" then "Truncated" ++ base
    else if name = "Censored" then "Censored" ++ base
    else name
  | .mixture comps => "Mixture" ++ joinDistinct comps

end Verif.Summary
