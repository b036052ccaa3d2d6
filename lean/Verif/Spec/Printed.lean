import Verif.Model.Printed
import Mathlib.Tactic

/-!
# Reading a printed distribution (C110)

`Name(a=1.5, b=[2, 3e+04])`, as a person or a Python interpreter reads it.
-/

namespace Verif.Spec

def digitOf (c : Char) : Option ℕ := if '0' ≤ c ∧ c ≤ '9' then some (c.toNat - 48) else none

/-- a number without sign and point -/
def readNat (l : List Char) : Option ℕ :=
  if l = [] then none else l.foldlM (fun a c => (digitOf c).map (a * 10 + ·)) 0

/-- a number without sign and exponent -/
noncomputable def readMantissa (t : List Char) : Option ℝ :=
  match t.dropWhile (· ≠ '.') with
  | [] => (readNat t).map fun n => (n : ℝ)
  | _ :: f =>
    match readNat (t.takeWhile (· ≠ '.')), readNat f with
    | some w, some n => some ((w : ℝ) + (n : ℝ) / 10 ^ f.length)
    | _, _ => none

noncomputable def readUnsigned (t : List Char) : Option ℝ :=
  match t.dropWhile (· ≠ 'e') with
  | [] => readMantissa t
  | _ :: '+' :: n =>
    match readMantissa (t.takeWhile (· ≠ 'e')), readNat n with
    | some m, some k => some (m * 10 ^ k)
    | _, _ => none
  | _ :: '-' :: n =>
    match readMantissa (t.takeWhile (· ≠ 'e')), readNat n with
    | some m, some k => some (m / 10 ^ k)
    | _, _ => none
  | _ => none

/-- a decimal number -/
noncomputable def readNumber : List Char → Option ℝ
  | '-' :: t => (readUnsigned t).map fun y => -y
  | t => readUnsigned t

/-- cut at the commas outside square brackets, dropping the comma and the character after it -/
def cutItems : Bool → List Char → List Char → List (List Char)
  | _, cur, [] => [cur]
  | true, cur, ']' :: t => cutItems false (cur ++ [']']) t
  | false, cur, '[' :: t => cutItems true (cur ++ ['[']) t
  | false, cur, ',' :: _ :: t => cur :: cutItems false [] t
  | b, cur, c :: t => cutItems b (cur ++ [c]) t

/-- cut at every comma, dropping the comma and the character after it -/
def cutCommas : List Char → List Char → List (List Char)
  | cur, [] => [cur]
  | cur, ',' :: _ :: t => cur :: cutCommas [] t
  | cur, c :: t => cutCommas (cur ++ [c]) t

inductive Figure
  | real (y : ℝ)
  | posInf
  | negInf
  | nan

noncomputable def readFigure (t : List Char) : Option Figure :=
  if t = "inf".toList then some .posInf
  else if t = "-inf".toList then some .negInf
  else if t = "nan".toList then some .nan
  else (readNumber t).map .real

inductive Shown
  | num (y : Figure)
  | vec (ys : List Figure)

/-- a number, or numbers in brackets -/
noncomputable def readValue : List Char → Option Shown
  | ['[', ']'] => some (.vec [])
  | '[' :: t => ((cutCommas [] t.dropLast).mapM readFigure).map .vec
  | t => (readFigure t).map .num

/-- `name=value` -/
noncomputable def readItem (t : List Char) : Option (List Char × Shown) :=
  (readValue ((t.dropWhile (· ≠ '=')).drop 1)).map fun v => (t.takeWhile (· ≠ '='), v)

/-- the name and the labelled values -/
noncomputable def readPrinted (t : List Char) : Option (List Char × List (List Char × Shown)) :=
  match t.dropWhile (· ≠ '(') with
  | ['(', ')'] => some (t.takeWhile (· ≠ '('), [])
  | '(' :: r => ((cutItems false [] r.dropLast).mapM readItem).map fun l => (t.takeWhile (· ≠ '('), l)
  | _ => none

/-- at most half a percent away -/
def Near (y x : ℝ) : Prop := |y - x| ≤ |x| / 200

end Verif.Spec

namespace Verif.Printed
open Verif.Spec

/-- a value and what is read in its place -/
def Num.Reads : Num → Figure → Prop
  | .real x, .real y => Near y x
  | .posInf, .posInf | .negInf, .negInf | .nan, .nan => True
  | _, _ => False

/-- arrays entry by entry -/
def Value.Reads : Value → Shown → Prop
  | .num v, .num y => v.Reads y
  | .vec l, .vec ys => List.Forall₂ Num.Reads l ys
  | _, _ => False

end Verif.Printed
