import Verif.Model.Warnings
import Verif.Model.Printed

/-!
# The texts of the warnings

unidimensional/maxent.py:158-164, unidimensional/quartile.py:128-137, unidimensional/matching.py:270-285.

Texts are lists of characters.  Numbers are finite; Python formats the value of a float exactly, so `format(x, ".2g")` is a
function of the real number.
-/

namespace Verif.WarnText
open Verif Verif.Modifier Verif.Printed

/-- the `p` digits of a number below `10 ^ p` -/
def digitsP : ℕ → ℕ → List ℕ
  | 0, _ => []
  | p + 1, m => digitsP p (m / 10) ++ [m % 10]

/-- `p` significant digits `m` and the exponent `e` of a positive number: `m · 10^(e-p+1)` -/
noncomputable def sigP (p : ℕ) (x : ℝ) : ℕ × ℤ :=
  let e := Int.log 10 x
  let m := roundEven (x / 10 ^ (e - ((p : ℤ) - 1)))
  if m = 10 ^ p then (10 ^ (p - 1), e + 1) else (m, e)

/-- Python's `format(x, ".<p>g")` for `x > 0` with the digits `m` and the exponent `e` -/
def gPos (p m : ℕ) (e : ℤ) : List Char :=
  let d := digitsP p m
  if 0 ≤ e ∧ e < p then withPoint (d.take (e.toNat + 1)) (d.drop (e.toNat + 1))
  else if -4 ≤ e ∧ e < 0 then withPoint [0] (List.replicate ((-e).toNat - 1) 0 ++ d)
  else withPoint (d.take 1) (d.drop 1) ++ 'e' :: (if 0 ≤ e then '+' else '-') :: chars (twoDigits e.natAbs)

/-- Python's `format(x, ".<p>g")` for a positive `p` -/
noncomputable def gFmt (p : ℕ) (x : ℝ) : List Char :=
  if x = 0 then ['0']
  else if x < 0 then '-' :: gPos p (sigP p (-x)).1 (sigP p (-x)).2
  else gPos p (sigP p x).1 (sigP p x).2

/-- maxent.py:158-164: the text of the warning, if there is one -/
noncomputable def maxentText (b : Base) (lower upper mass : ℝ) : Option (List Char) :=
  if Warnings.maxentWarns b lower upper mass then
    some ("\nThe requested mass is ".toList ++ gFmt 3 mass ++ ",\nbut the computed one is ".toList ++
      gFmt 3 (Warnings.relativeError b lower upper mass).2)
  else none

/-- quartile.py:128-137 -/
noncomputable def quartileText (b : Base) (q1 q2 q3 : ℝ) : Option (List Char) :=
  (Warnings.quartileWarning b q1 q2 q3).map fun m =>
    "\nThe expected masses are 0.25, 0.5, 0.75\nThe computed ones are: ".toList ++ gFmt 2 (m.getD 0 0) ++ ", ".toList ++
      gFmt 2 (m.getD 1 0) ++ ", ".toList ++ gFmt 2 (m.getD 2 0)

/-- matching.py:271: is the error above the tolerance?  NumPy divides by zero to an infinite error, or to NaN if the
numerator is zero, too -/
noncomputable def off (tol requested target : ℝ) : Bool :=
  if target + 1e-6 = 0 then decide (requested - target ≠ 0)
  else decide (|(requested - target) / (target + 1e-6) * 100| > tol)

/-- NumPy's operations on arrays of one dimension: equal lengths, or one array of length one -/
def broadcast (f : ℝ → ℝ → Bool) (a b : List ℝ) : Except Err (List Bool) :=
  if a.length = b.length then .ok (List.zipWith f a b)
  else match a, b with
    | [x], b => .ok (b.map (f x))
    | a, [y] => .ok (a.map fun x => f x y)
    | _, _ => .error .valueError

/-- matching.py:275-279: one line of the message -/
noncomputable def line (labels : List (List Char)) (target requested : List ℝ) (i : ℕ) : Except Err (List Char) :=
  match labels[i]?, target[i]?, requested[i]? with
  | some l, some t, some r =>
    .ok ("\n - ".toList ++ l ++ ": ".toList ++ gFmt 3 t ++ " vs ".toList ++ gFmt 3 r)
  | _, _, _ => .error .indexError

/-- matching.py:270-285 `_check_relative_error`: the text of the warning, if there is one.  `labels` are the texts of
`values` -/
noncomputable def matchText (tol : ℝ) (labels : List (List Char)) (target requested : List ℝ) :
    Except Err (Option (List Char)) := do
  let errors ← broadcast (off tol) requested target
  if errors.any id then
    let lines ← (errors.zipIdx.filter fun p => p.1).mapM fun p => line labels target requested p.2
    return some ("There is a mismatch:".toList ++ lines.flatten)
  else return none

/-- matching.py:138: the check of match_moments, labelled by the letters -/
noncomputable def momentsText (moments : List Char) (target requested : List ℝ) : Except Err (Option (List Char)) :=
  matchText 0.01 (moments.map fun c => [c]) target requested

/-- matching.py:259: the check of match_quantiles; `labels` are the printed quantiles -/
noncomputable def quantilesText (labels : List (List Char)) (target requested : List ℝ) : Except Err (Option (List Char)) :=
  matchText 0.1 labels target requested

end Verif.WarnText
