import Verif.Model.Param
import Mathlib.Data.Int.Log
import Mathlib.Data.Nat.Digits.Defs

/-!
# Printing a distribution (distributions/distributions.py:42-70)
-/

namespace Verif.Printed
open Verif

/-! ## The format `.3g` -/

/-- to the nearest whole number, ties to the even one -/
noncomputable def roundEven (y : ℝ) : ℕ :=
  let f := ⌊y⌋₊
  if y - f < 1 / 2 then f else if 1 / 2 < y - f then f + 1 else if f % 2 = 0 then f else f + 1

/-- three significant digits `m` and the exponent `e` of a positive number: `m · 10^(e-2)` -/
noncomputable def sig3 (x : ℝ) : ℕ × ℤ :=
  let e := Int.log 10 x
  let m := roundEven (x / 10 ^ (e - 2))
  if m = 1000 then (100, e + 1) else (m, e)

def dropZeros (l : List ℕ) : List ℕ := (l.reverse.dropWhile (· = 0)).reverse

def digits3 (m : ℕ) : List ℕ := [m / 100, m / 10 % 10, m % 10]

def chars (l : List ℕ) : List Char := l.map Nat.digitChar

/-- digits before and after the point; no point without digits after it -/
def withPoint (w f : List ℕ) : List Char :=
  let f := dropZeros f
  if f = [] then chars w else chars w ++ '.' :: chars f

/-- at least two digits -/
def twoDigits (n : ℕ) : List ℕ :=
  let d := (Nat.digits 10 n).reverse
  List.replicate (2 - d.length) 0 ++ d

/-- Python's `format(x, ".3g")` for `x > 0` with the digits `m` and the exponent `e` -/
def g3Pos (m : ℕ) (e : ℤ) : List Char :=
  let d := digits3 m
  if 0 ≤ e ∧ e < 3 then withPoint (d.take (e.toNat + 1)) (d.drop (e.toNat + 1))
  else if -4 ≤ e ∧ e < 0 then withPoint [0] (List.replicate ((-e).toNat - 1) 0 ++ d)
  else withPoint (d.take 1) (d.drop 1) ++ 'e' :: (if 0 ≤ e then '+' else '-') :: chars (twoDigits e.natAbs)

noncomputable def g3 (x : ℝ) : List Char :=
  if x = 0 then ['0']
  else if x < 0 then '-' :: g3Pos (sig3 (-x)).1 (sig3 (-x)).2
  else g3Pos (sig3 x).1 (sig3 x).2

/-! ## The text -/

inductive Num
  | real (x : ℝ)
  | posInf
  | negInf
  | nan

noncomputable def Num.text : Num → List Char
  | .real x => g3 x
  | .posInf => "inf".toList
  | .negInf => "-inf".toList
  | .nan => "nan".toList

/-- a parameter: `None`, a number, an array of one dimension -/
inductive Value
  | missing
  | num (v : Num)
  | vec (l : List Num)

/-- `str.strip` with a set of characters -/
def pyStrip (s : List Char) (l : List Char) : List Char :=
  ((l.dropWhile (s.contains ·)).reverse.dropWhile (s.contains ·)).reverse

/-- one turn of the generator, distributions.py:56-63; `None` cannot be formatted -/
noncomputable def item (n : List Char) : Value → Except Err (List Char)
  | .missing => .error .typeError
  | .num v => .ok (n ++ '=' :: v.text ++ [',', ' '])
  | .vec l => .ok (n ++ '=' :: '[' :: pyStrip [',', ' '] (l.map fun v => v.text ++ [',', ' ']).flatten ++ [']', ',', ' '])

/-- what printing needs of an object -/
structure Obj where
  name : List Char
  names : List (List Char)
  params : List Value
  frozen : Bool

/-- distributions.py:51-64 -/
noncomputable def description (o : Obj) : Except Err (List Char) :=
  if !o.frozen then .ok []
  else do
    let items ← (o.names.zip o.params).mapM fun nv => item nv.1 nv.2
    return pyStrip [',', ' '] items.flatten

/-- distributions.py:66-70; `str` and `print` use it as well -/
noncomputable def repr (o : Obj) : Except Err (List Char) :=
  if o.frozen then do
    let d ← description o
    return o.name ++ '(' :: d ++ [')']
  else .ok o.name

/-! ## The name (distributions.py:42-49) -/

inductive Cls
  | plain (name : String)
  | wrapped (wrapper base : String)
  | mixture (names : List String)

/-- `dict.fromkeys`: first occurrences, in order -/
def firsts : List String → List String
  | [] => []
  | a :: l => a :: (firsts l).filter (· ≠ a)

def getName : Cls → String
  | .plain n => n
  | .wrapped w b => w ++ b
  | .mixture l => "Mixture" ++ String.join (firsts l)

/-! ## Use in the text of a model -/

/-- `str.split` at a character -/
def splitChar (x : Char) : List Char → List Char → List (List Char)
  | cur, [] => [cur]
  | cur, c :: t => if c = x then cur :: splitChar x [] t else splitChar x (cur ++ [c]) t

/-- `dist_name, dist_params = repr(dist).split("(")` (pymc_io.py:198, 209; bambi_io.py:36, 45) -/
noncomputable def nameAndParams (o : Obj) : Except Err (List Char × List Char) := do
  let t ← repr o
  match splitChar '(' [] t with
  | [a, b] => return (a, b)
  | _ => .error .valueError

/-- an object of a family, as it is printed -/
def ofParam (name : String) (o : Param.Obj) : Obj :=
  ⟨name.toList, o.names.map String.toList,
    (o.params.getD []).map fun p => match p with | none => .missing | some x => .num (.real x), o.frozen⟩

end Verif.Printed
