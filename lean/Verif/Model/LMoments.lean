import Verif.Model.Delegate

/-!
# `moments` and `lmoments` as they resolve on each class (C128)

Python looks a method up on the class of the object and, failing that, on the base class
`Distribution`, whose versions raise `NotImplementedError` (a `RuntimeError`).
-/

namespace Verif.LMoments
open Verif Verif.Delegate

/-- the classes that do not call the library directly -/
inductive Other
  | truncated | censored | hurdle | mixture | categorical
  deriving DecidableEq

/-- the moments a class defines itself: truncated.py:82-119, censored.py:86-167, hurdle.py:77-107,
mixture.py:107-134, categorical.py:97-116 -/
def Other.defines : Other → List Meth
  | .truncated => [.mean, .mode, .median, .var, .std, .skewness, .kurtosis]
  | .censored => [.mean, .mode, .median, .var, .std, .skewness, .kurtosis]
  | .hurdle => [.mean, .mode, .median, .var, .std]
  | .mixture => [.mean, .median, .var, .std, .skewness, .kurtosis]
  | .categorical => [.mean, .mode, .median, .var, .std, .skewness, .kurtosis]

/-- the methods without arguments of an object: `none` where the class defines none -/
abbrev Methods (β : Type) := Meth → Option (Except Err β)

/-- an object of a family with scalar parameters -/
def plain {α : Type} (w : Wiring) (user attr : Id → α) : Methods (Call α) := fun m =>
  if w.rows.any (·.meth = m) then some (w.call m user attr) else none

/-- an object of one of the other classes; `val` is what its methods return -/
def other {β : Type} (k : Other) (val : Meth → Except Err β) : Methods β := fun m =>
  if m ∈ k.defines then some (val m) else none

/-- distributions.py:310-352: what is inherited raises `NotImplementedError` -/
def inherited {β : Type} (d : Methods β) (m : Meth) : Except Err β :=
  match d m with
  | some r => r
  | none => .error .runtimeError

/-- distributions.py:354-387 `moments` -/
def moments {β : Type} (d : Methods β) : List Char → Except Err (List β)
  | [] => .ok []
  | c :: cs => do
    if c ∉ ['m', 'd', 'v', 's', 'k'] then .error .valueError
    else
      let v ← if c = 'm' then inherited d .mean
        else if c = 'd' then inherited d .std
        else if c = 'v' then inherited d .var
        else if c = 's' then inherited d .skewness
        else inherited d .kurtosis
      let vs ← moments d cs
      .ok (v :: vs)

/-- distributions.py:389-417 `lmoments` -/
def lmoments {β : Type} (d : Methods β) : List Char → Except Err (List β)
  | [] => .ok []
  | c :: cs => do
    if c ∉ ['1', '2', '3', '4'] then .error .valueError
    else
      let v ← if c = '1' then inherited d .lmoment1
        else if c = '2' then inherited d .lmoment2
        else if c = '3' then inherited d .lmoment3
        else inherited d .lmoment4
      let vs ← lmoments d cs
      .ok (v :: vs)

end Verif.LMoments
