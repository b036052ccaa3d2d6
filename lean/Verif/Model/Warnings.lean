import Verif.Model.Optim
import Verif.Model.Match

/-!
# What maxent, quartile and match_quantiles say about the fit they return

unidimensional/maxent.py:130-170 and 178-187, unidimensional/quartile.py:117-140,
unidimensional/matching.py:218-285, internal/optimization.py:382-386.
-/

namespace Verif.Warnings
open Verif Verif.Modifier

/-- optimization.py:382-386; the required mass is positive wherever this is called -/
noncomputable def relativeError (b : Base) (lower upper mass : ℝ) : ℝ × ℝ :=
  let lower := if b.discrete then lower - 1 else lower
  let computed := b.cdf upper - b.cdf lower
  (|(computed - mass) / mass * 100|, computed)

/-- maxent.py:158-163: is there a warning about the mass? -/
noncomputable def maxentWarns (b : Base) (lower upper mass : ℝ) : Bool :=
  decide ((relativeError b lower upper mass).1 > 0.01)

/-- quartile.py:122-131: the masses printed in the warning, if there is one -/
noncomputable def quartileWarning (b : Base) (q1 q2 q3 : ℝ) : Option (List ℝ) :=
  if (relativeError b q1 q3 0.5).1 > 0.01 then some ([q1, q2, q3].map fun q => b.cdf q) else none

/-- a number the user may pass as a bound: a Python `int`, a `float` (also `np.float64`), or another numeric type such as
`np.int64` -/
inductive Num
  | int (n : ℤ)
  | float (x : ℝ)
  | other (x : ℝ)

/-- its value -/
def Num.val : Num → ℝ
  | .int n => n
  | .float x => x
  | .other x => x

open Classical in
/-- maxent.py:182-187 -/
noncomputable def isIntegerNum : Num → Bool
  | .int _ => true
  | .float x => decide (∃ n : ℤ, x = n)
  | .other _ => false

/-- maxent.py:134-139, 178-179: is there a warning about bounds that are not integers? -/
noncomputable def boundsWarn (b : Base) (lower upper : Num) : Bool :=
  b.discrete && !(isIntegerNum lower && isIntegerNum upper)

/-- matching.py:221-226 -/
noncomputable def checkQuantiles : Option (List ℝ) → Except Err (List ℝ)
  | none => .ok [0.25, 0.5, 0.75]
  | some qs => if qs.any (fun q => decide (q ≤ 0) || decide (1 ≤ q)) then .error .valueError else .ok qs

/-- `np.quantile` (linear interpolation) for `0 ≤ q ≤ 1`; `none` for no data -/
noncomputable def npQuantile (data : List ℝ) (q : ℝ) : Option ℝ :=
  let s := data.insertionSort (· ≤ ·)
  let h := ((data.length : ℝ) - 1) * q
  let j := ⌊h⌋₊
  (s[j]?).map fun a => match s[j + 1]? with
    | none => a
    | some b => a + (h - j) * (b - a)

/-- matching.py:236-247: the targets of match_quantiles -/
noncomputable def quantileTargets (ppf : Option (ℝ → ℝ)) (frozen : Bool) (data qs : List ℝ) : Except Err (List (Option ℝ)) :=
  match ppf with
  | some f => if frozen then .ok (qs.map fun q => some (f q)) else .error .valueError
  | none => .ok (qs.map (npQuantile data))

/-- matching.py:270-285 with `tol=0.1` (matching.py:259): is there a warning? -/
noncomputable def quantilesWarn (target requested : List ℝ) : Bool :=
  (requested.zip target).any fun p => decide (|(p.1 - p.2) / (p.2 + 1e-6) * 100| > 0.1)

/-- matching.py:273-279: the positions listed in the warning -/
noncomputable def listed (tol : ℝ) (target requested : List ℝ) : List ℕ :=
  ((requested.zip target).zipIdx.filter fun p => decide (|(p.1.1 - p.1.2) / (p.1.2 + 1e-6) * 100| > tol)).map Prod.snd

end Verif.Warnings
