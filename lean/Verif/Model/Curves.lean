import Verif.Model.Interval

/-!
# Curves drawn by `plot_cdf`, `plot_sf` and `plot_pdf` (internal/plot_helper.py:128-275)

Discrete distributions only, plus the marks for the point masses of a censored continuous one.  Axes, labels and styles
are not modelled.
-/

namespace Verif.Curves
open Verif Verif.Modifier Verif.Interval

/-- plot_helper.py:210-211 and 259-261: `x[0]` of an empty array raises IndexError; `np.insert` at `0` and `len(x)` -/
def withEnds : List ℤ → Except Err (List ℤ)
  | [] => .error .indexError
  | x :: xs => .ok ((x - 1) :: (x :: xs) ++ [(x :: xs).getLast (List.cons_ne_nil _ _) + 1])

/-- `ax.step(x, y, where="post")`: matplotlib documents that the value on `[x[i], x[i+1])` is `y[i]`; `none` where nothing
is drawn -/
noncomputable def stepPost : List (ℤ × ℝ) → ℝ → Option ℝ
  | (a, h) :: (b, h') :: rest, y => if (a : ℝ) ≤ y ∧ y < b then some h else stepPost ((b, h') :: rest) y
  | _, _ => none

/-- plot_helper.py:207-216 (`f = dist.cdf`) and 256-265 (`f = dist.sf`), the discrete branch: height of the curve and the
horizontal limits of the figure -/
noncomputable def plotSteps (b : Base) (f : ℝ → ℝ) (s : Support) : Except Err ((ℝ → Option ℝ) × ℝ × ℝ) := do
  let x ← xvalsDiscrete b s none
  let x' ← withEnds x
  return (stepPost (x'.map fun k => (k, f k)), (x'.head! + 1 : ℤ) - 0.1, (x'.getLast! - 1 : ℤ) + 0.1)

/-- distributions.py:233-241 -/
noncomputable def plotCdf (b : Base) := plotSteps b fun x => b.cdf x
/-- distributions.py:276-284 -/
noncomputable def plotSf (b : Base) := plotSteps b (sf b)

/-- plot_helper.py:171-172, 176, 187: the markers of the discrete branch -/
noncomputable def plotPmf (b : Base) (s : Support) : Except Err (List (ℤ × ℝ)) := do
  let x ← xvalsDiscrete b s none
  return x.map fun k => (k, b.pdf k)

/-- distributions.py:608-630: the left end of the grid of a censored distribution; `lower`, `upper` are its support -/
noncomputable def leftEnd (b : Base) (lower upper : EReal) : Support → Except Err EReal
  | .pair l _ => .ok l
  | .other => .error .valueError
  | .full => .ok (if lower = ⊤ ∨ lower = ⊥ then censPpf b lower upper 0.0001 else lower)
  | .restricted => .ok (censPpf b lower upper 0.0001)

/-- plot_helper.py:148-168: positions of the dashed lines at the point masses of a censored continuous distribution;
`np.min(x)` is the left end of the grid (its ends are taken to be in order).  Their heights, 1.5 times the density of the
base, are decoration. -/
noncomputable def censMarks (b : Base) (lower upper : EReal) (s : Support) : Except Err (List EReal) := do
  let m ← leftEnd b lower upper s
  return if m ≤ lower then [lower, upper] else []

end Verif.Curves
