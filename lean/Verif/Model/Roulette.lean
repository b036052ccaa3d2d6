import Verif.Basics
import Mathlib.Analysis.SpecialFunctions.Pow.Real

/-!
# The roulette grid

preliz/unidimensional/roulette.py.  The figure is reduced to the chip counts and the colours of the
cells; mouse coordinates are real numbers.
-/

namespace Verif.Roulette
open Verif

/-- State of `_Rectangles` (roulette.py:402-410): number of rows and columns, `_weights` (chips per
column, a dictionary with keys `0 .. ncols-1`), and which cells have the chip colour. -/
structure Grid where
  nrows : ℕ
  ncols : ℕ
  weights : ℕ → ℤ
  filled : ℕ → ℕ → Bool

/-- roulette.py:402-410 and 203-214: a fresh grid (all cells grey, all counts zero) -/
def fresh (nrows ncols : ℕ) : Grid := ⟨nrows, ncols, fun _ => 0, fun _ _ => false⟩

/-- a mouse press: is it inside the grid axes, and where -/
structure Press where
  inAxes : Bool
  x : ℝ
  y : ℝ

/-- roulette.py:412-427 -/
noncomputable def click (g : Grid) (e : Press) : Grid :=
  if e.inAxes then
    let idx := ⌊e.x⌋
    let idy := ⌈e.y⌉
    if 0 ≤ idx ∧ idx < g.ncols ∧ 0 ≤ idy ∧ idy ≤ g.nrows then
      let col := idx.toNat
      let top := decide (g.weights col ≥ idy)
      let idy := if top then idy - 1 else idy
      let filled := if top then
          fun row c => if c = col ∧ row < g.nrows then false else g.filled row c
        else g.filled
      { g with
        weights := Function.update g.weights col idy
        filled := fun row c => if c = col ∧ (row : ℤ) < idy then true else filled row c }
    else g
  else g

/-- what the user can do: press a mouse button, or change the size of the grid with the widgets
(roulette.py:372-382, which rebuild the grid) -/
inductive Event
  | press (p : Press)
  | resize (nrows ncols : ℕ)

noncomputable def step (g : Grid) : Event → Grid
  | .press p => click g p
  | .resize r c => fresh r c

noncomputable def runEvents (g : Grid) (l : List Event) : Grid := l.foldl step g

/-- the counts in the order of the dictionary -/
def Grid.counts (g : Grid) : List (ℕ × ℤ) := (List.range g.ncols).map fun k => (k, g.weights k)

/-- `v ** 0.5` for a float: a complex number (`none`) for negative `v` -/
noncomputable def powHalf (v : ℝ) : Option ℝ := if v < 0 then none else some (Real.sqrt v)

structure Histogram where
  xs : List ℝ
  probs : List ℝ
  mean : ℝ
  std : Option ℝ
  columns : ℕ

/-- `v / total` inside the comprehension of roulette.py:196 -/
noncomputable def divAll (total : ℝ) : List ℝ → Except Err (List ℝ)
  | [] => .ok []
  | v :: rest => do
    let p ← pyDiv v total
    let ps ← divAll total rest
    return p :: ps

/-- roulette.py:192-201 -/
noncomputable def weightsToPdf (xMin xMax : ℝ) (g : Grid) : Except Err Histogram := do
  let stepSize ← pyDiv (xMax - xMin) ((g.ncols : ℝ) - 1)
  let used := g.counts.filter fun kv => kv.2 ≠ 0
  let xs := used.map fun kv => ((kv.1 : ℝ) + 1 / 2) * stepSize + xMin
  let total : ℝ := ((g.counts.map Prod.snd).sum : ℤ)
  let probs ← divAll total (used.map fun kv => (kv.2 : ℝ))
  let mean := ((xs.zip probs).map fun vp => vp.2 * vp.1).sum
  let std := powHalf ((xs.zip probs).map fun vp => vp.2 * (vp.1 - mean) ^ 2).sum
  return ⟨xs, probs, mean, std, xs.length⟩

/-- `np.linspace(a, b, num)` -/
noncomputable def linspace (a b : ℝ) (num : ℕ) : List ℝ :=
  (List.range num).map fun (i : ℕ) => if num = 1 then a else a + i * ((b - a) / ((num : ℝ) - 1))

/-- roulette.py:129-137: tick positions with the (unrounded) value of their labels -/
noncomputable def ticks (xMin xMax : ℝ) (ncols : ℕ) : List (ℝ × ℝ) :=
  let num := if ncols < 11 then ncols else 11
  ((linspace 0 ((ncols : ℝ) - 1) num).map (· + 1 / 2)).zip (linspace xMin xMax num)

end Verif.Roulette
