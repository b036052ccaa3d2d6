import Verif.Model.Modifier
import Verif.Model.Loop
import Mathlib.Analysis.SpecialFunctions.Complex.Arg
import Mathlib.Data.List.Sort
import Mathlib.Algebra.Order.Floor.Ring
import Mathlib.Algebra.BigOperators.Group.List.Basic

/-!
# Intervals, evaluation grids, numerical quantiles and modes

preliz/distributions/distributions.py and preliz/internal/optimization.py.
-/

namespace Verif.Interval
open Verif Verif.Modifier

/-- Python's `int(x)` on a float: truncation towards zero, OverflowError on infinities. -/
noncomputable def pyInt (x : EReal) : Except Err ℤ :=
  if x = ⊤ ∨ x = ⊥ then .error .overflow
  else .ok (if 0 ≤ x.toReal then ⌊x.toReal⌋ else ⌈x.toReal⌉)

/-- distributions.py:276-284 -/
noncomputable def sf (b : Base) (x : ℝ) : ℝ := 1 - b.cdf x
/-- distributions.py:296-304 -/
noncomputable def isf (b : Base) (p : ℝ) : EReal := b.ppf (1 - p)

/-- distributions.py:417-448.  `frozen` and `scalar` are the two conditions tested by
`valid_scalar_params` (distribution_helper.py:38-58); `mass = none` uses the configured
`stats.ci_prob`; `fmt = none` is `"none"`, otherwise the decimal rounding applied by the format
string.  The check that `fmt` is a string is a type here. -/
noncomputable def eti (b : Base) (frozen scalar : Bool) (ciProb : ℝ) (fmt : Option (EReal → EReal))
    (mass : Option ℝ) : Except Err (EReal × EReal) := do
  if !frozen then throw .valueError
  let mass := mass.getD ciProb
  if !scalar then throw .valueError
  let lower := b.ppf ((1 - mass) / 2)
  let upper := b.ppf (1 - (1 - mass) / 2)
  match b.discrete, fmt with
  | false, some f => return (f lower, f upper)
  | false, none => return (lower, upper)
  | true, _ =>
    let l ← pyInt lower
    let u ← pyInt upper
    return (((l : ℝ) : EReal), ((u : ℝ) : EReal))

/-! ## Grids -/

/-- `np.iinfo(np.int64).max` -/
def int64Max : ℤ := 2 ^ 63 - 1

/-- `np.linspace(start, stop, num, dtype=int)`: `num` equally spaced reals, the last one exactly
`stop`, rounded down. -/
def linspaceInt (start stop : ℤ) (num : ℕ) : List ℤ :=
  (List.range num).map fun (i : ℕ) => ⌊(start : ℚ) + i * (((stop - start : ℤ) : ℚ) / (num - 1 : ℕ))⌋

/-- distributions.py:1177-1191.  The end points arrive as numbers and go through `int`. -/
def discreteXvals (lower upper : ℤ) (nPoints : ℕ) : List ℤ :=
  let range := upper - lower
  if range ≤ nPoints then
    (List.range (upper + 1 - lower).toNat).map fun (i : ℕ) => lower + (i : ℤ)
  else
    let upper := if range > int64Max then lower + int64Max else upper
    linspaceInt lower (upper + 1) nPoints

inductive Support | full | restricted | other | pair (lower upper : EReal)

/-- distributions.py:608-630 -/
noncomputable def finiteEndpoints (b : Base) (s : Support) : Except Err (EReal × EReal) :=
  match s with
  | .pair l u => .ok (l, u)
  | .other => .error .valueError
  | .full =>
    .ok (if b.lo = ⊤ ∨ b.lo = ⊥ then b.ppf 0.0001 else b.lo,
         if b.hi = ⊤ ∨ b.hi = ⊥ then b.ppf 0.9999 else b.hi)
  | .restricted => .ok (b.ppf 0.0001, b.ppf 0.9999)

/-- distributions.py:632-661, the discrete branch -/
noncomputable def xvalsDiscrete (b : Base) (s : Support) (nPoints : Option ℕ) :
    Except Err (List ℤ) := do
  let (l, u) ← finiteEndpoints b s
  let u ← pyInt u
  let l ← pyInt l
  return discreteXvals l u (nPoints.getD 200)

/-! ## Highest density intervals -/

/-- the loop at optimization.py:306-312: values in the order of decreasing mass until `mass` is
reached -/
noncomputable def takeMass (mass : ℝ) : ℝ → List (ℤ × ℝ) → List ℤ
  | _, [] => []
  | total, (v, p) :: rest => v :: if total + p ≥ mass then [] else takeMass mass (total + p) rest

/-- optimization.py:298-314.  `sorted` is the grid with its masses as ordered by
`np.argsort(pmf_vals)[::-1]`, an unstable sort: any decreasing rearrangement may occur. -/
noncomputable def discreteHdi (mass : ℝ) (sorted : List (ℤ × ℝ)) : Except Err (ℤ × ℤ) :=
  match takeMass mass 0 sorted with
  | [] => .error .valueError
  | v :: vs => .ok (vs.foldl min v, vs.foldl max v)

/-- the arrays `x_vals`, `dist.pdf(x_vals)` -/
def withMass (f : ℤ → ℝ) (grid : List ℤ) : List (ℤ × ℝ) := grid.map fun x => (x, f x)

/-- optimization.py:280-295 for discrete distributions: `argsort` is the sorting step, `approx` the
result of the continuous optimiser used for long grids. -/
noncomputable def findHdiDiscrete (pmf : ℤ → ℝ) (grid : List ℤ)
    (argsort : List (ℤ × ℝ) → List (ℤ × ℝ)) (approx : Except Err (ℤ × ℤ)) (mass : ℝ) :
    Except Err (ℤ × ℤ) :=
  if grid.length < 199 then discreteHdi mass (argsort (withMass pmf grid)) else approx

/-! ## Modes -/

/-- `np.argmax` as a scan: position of the first largest value -/
noncomputable def argmaxFrom (f : ℤ → ℝ) (best : ℤ) : List ℤ → ℤ
  | [] => best
  | x :: xs => if f x > f best then argmaxFrom f x xs else argmaxFrom f best xs

/-- optimization.py:568-584 (`argmax` of an empty array raises ValueError) -/
noncomputable def findDiscreteMode (pmf : ℤ → ℝ) : List ℤ → Except Err ℤ
  | [] => .error .valueError
  | x :: xs => .ok (argmaxFrom pmf x xs)

/-! ## Quantiles by root finding -/

/-- scipy's `brentq`: needs a sign change, otherwise raises ValueError -/
noncomputable def brentq (solve : (ℝ → ℝ) → ℝ → ℝ → ℝ) (f : ℝ → ℝ) (a b : ℝ) : Except Err ℝ :=
  if f a * f b > 0 then .error .valueError else .ok (solve f a b)

noncomputable section
open Classical

/-- optimization.py:617-619: `while func(left) > 0: left, right = left * factor, left` -/
def expandLeft (cdf : ℝ → ℝ) (q : ℝ) : ℝ × ℝ → ℝ × ℝ → Prop :=
  Loop.Ends (fun s => decide (cdf s.1 - q > 0)) (fun s => (s.1 * 10, s.1))

/-- optimization.py:621-623: `while func(right) < 0: left, right = right, right * factor` -/
def expandRight (cdf : ℝ → ℝ) (q : ℝ) : ℝ × ℝ → ℝ × ℝ → Prop :=
  Loop.Ends (fun s => decide (cdf s.2 - q < 0)) (fun s => (s.2, s.2 * 10))

/-- optimization.py:610-625: the call terminates with outcome `r` -/
def ppfSingle (solve : (ℝ → ℝ) → ℝ → ℝ → ℝ) (cdf : ℝ → ℝ) (hi : EReal) (q : ℝ)
    (r : Except Err ℝ) : Prop :=
  ∃ left right L R : ℝ,
    expandLeft cdf q ((min (((-10 : ℝ)) : EReal) hi).toReal, hi.toReal) (left, right) ∧
    expandRight cdf q (left, max 10 left) (L, R) ∧
    r = brentq solve (fun x => cdf x - q) L R

/-- optimization.py:587-607 for one level; `shift` holds for the two families whose result is
increased by one.  `some none` is NaN. -/
def findPpf (solve : (ℝ → ℝ) → ℝ → ℝ → ℝ) (cdf : ℝ → ℝ) (discrete shift : Bool)
    (lo hi : EReal) (q : ℝ) (r : Except Err (Option EReal)) : Prop :=
  if q < 0 then r = .ok none
  else if q > 1 then r = .ok none
  else if q = 0 then r = .ok (some (if discrete then lo - 1 else lo))
  else if q = 1 then r = .ok (some hi)
  else ∃ s, ppfSingle solve cdf hi q s ∧
    r = s.map fun x => some (((if shift then x + 1 else x : ℝ)) : EReal)

end

/-! ## VonMises -/

/-- `np.arctan2(sin a, cos a)` -/
noncomputable def wrapAngle (a : ℝ) : ℝ := Complex.arg (⟨Real.cos a, Real.sin a⟩ : ℂ)

/-- vonmises.py:145-154 -/
noncomputable def warpInterval (fmt : Option (ℝ → ℝ)) (lo hi mu : ℝ) : ℝ × ℝ :=
  let lower := wrapAngle (lo + mu)
  let upper := wrapAngle (hi + mu)
  match fmt with
  | none => (lower, upper)
  | some f => (f lower, f upper)

/-- vonmises.py:130-135 and 137-142.  The object's `mu` is state: it is set to 0, the inherited
method runs (`super`, a function of the current `mu`), then `mu` is restored.  Returns the outcome
and the final `mu`. -/
noncomputable def vonMisesInterval (super : ℝ → Except Err (ℝ × ℝ)) (fmt : Option (ℝ → ℝ))
    (mu : ℝ) : Except Err (ℝ × ℝ) × ℝ :=
  match super 0 with
  | .error e => (.error e, 0)
  | .ok (lo, hi) => (.ok (warpInterval fmt lo hi mu), mu)

end Verif.Interval
