import Verif.Basics
import Mathlib.Data.List.Sort
import Mathlib.Data.Real.Sqrt
import Mathlib.Data.Real.Archimedean

/-!
# The distances of the prior predictive assistant (preliz/predictive/ppa.py:199-218, 312-338, 388-404)

Samples are compared by their octiles, and the automatic selection stops at a trimmed mean of the distances known so far.
-/

namespace Verif.PpaDistance
open Verif

/-- `np.quantile(l, q)` with the default linear interpolation; `none` for an empty sample (NumPy raises IndexError) -/
noncomputable def quantile (l : List ℝ) (q : ℝ) : Option ℝ :=
  let s := l.insertionSort (· ≤ ·)
  let h := ((l.length : ℝ) - 1) * q
  let i := ⌊h⌋₊
  match s[i]?, s[min (i + 1) (l.length - 1)]? with
  | some a, some b => some (a + (h - i) * (b - a))
  | _, _ => none

/-- ppa.py:205, 214-216 -/
noncomputable def octiles (l : List ℝ) : List (Option ℝ) :=
  [0.125, 0.25, 0.375, 0.5, 0.625, 0.75, 0.875].map (quantile l)

/-- what `KDTree` calls the distance of two samples -/
noncomputable def distance (l l' : List ℝ) : ℝ :=
  Real.sqrt ((List.zipWith (fun a b => (a.getD 0 - b.getD 0) ^ 2) (octiles l) (octiles l')).sum)

/-- ppa.py:321-331: the largest distance for the automatic selection and the number of neighbours to ask for;
`.nan` is the mean of an empty array -/
inductive Bound
  | infinite
  | nan
  | upTo (d : ℝ)

noncomputable def bound (distances : List ℝ) : Bound :=
  if 2 < distances.length then
    let lo := (quantile distances 0.1).getD 0
    let hi := (quantile distances 0.9).getD 0
    let kept := distances.filter fun v => lo < v ∧ v < hi
    if kept = [] then .nan else .upTo (kept.sum / kept.length)
  else .infinite

/-- ppa.py:388-404: what "return prior" does; the fit of the selected prior samples is a parameter -/
def returnPrior {F : Type} (fit : List ℕ → Except Err F) (selected : List ℕ) : Except Err (Option F) :=
  if 4 < selected.length then (fit selected).map some else .ok none

end Verif.PpaDistance
