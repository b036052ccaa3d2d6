import Verif.Basics
import Verif.Model.Loop

/-!
# Dirichlet elicitation: multidimensional/dirichlet_mode.py, internal/optimization.py:254-277

The distribution function of the Beta family is a parameter `cdf a b x`; `none` is NaN.
-/

namespace Verif.Dirichlet
open Verif

/-- `1 + tau * mode_i` (optimization.py:256) -/
noncomputable def alphaOf (mode : List ℝ) (tau : ℝ) : List ℝ := mode.map fun m => 1 + tau * m

/-- `None` propagates like NaN through `np.mean` -/
noncomputable def sumOpt : List (Option ℝ) → Option ℝ
  | [] => some 0
  | x :: xs => do
    let a ← x
    let b ← sumOpt xs
    return a + b

/-- `np.mean`; NaN for an empty list -/
noncomputable def meanOpt (l : List (Option ℝ)) : Option ℝ :=
  if l = [] then none else (sumOpt l).map (· / l.length)

/-- optimization.py:255-264: the averaged lower-tail probability of the Beta(a_i, a_0 - a_i) -/
noncomputable def probApprox (cdf : ℝ → ℝ → ℝ → Option ℝ) (lower mode : List ℝ) (tau : ℝ) :
    Option ℝ :=
  let alpha := alphaOf mode tau
  let a0 := alpha.sum
  meanOpt ((alpha.zip lower).map fun p => cdf p.1 (a0 - p.1) p.2)

/-- optimization.py:269: `abs(new_prob - target_mass) > 0.0001`, false for NaN -/
noncomputable def searching (prob : ℝ → Option ℝ) (target : ℝ) (tau : ℝ) : Bool :=
  match prob tau with
  | none => false
  | some p => decide (|p - target| > 1 / 10000)

/-- optimization.py:270-273 -/
noncomputable def nextTau (prob : ℝ → Option ℝ) (target : ℝ) (tau : ℝ) : ℝ :=
  match prob tau with
  | none => tau + 0.5 * tau
  | some p => if p < target then tau - 0.5 * tau else tau + 0.5 * tau

/-- dirichlet_mode.py:51-60: the checked and normalised mode, and whether the warning is issued -/
noncomputable def prepare (mass : ℝ) (mode : List ℝ) : Except Err (List ℝ × Bool) :=
  if ¬ (0 < mass ∧ mass ≤ 1) then .error .valueError
  else if mode.any fun i => decide (¬ 0 < i) then .error .valueError
  else if |mode.sum - 1| < 1 / 10000 then .ok (mode, false)
  else .ok (mode.map fun i => i / mode.sum, true)

/-- `np.clip(mode - bound, 0, 1)` (dirichlet_mode.py:65) -/
noncomputable def lowBounds (mode : List ℝ) (bound : ℝ) : List ℝ :=
  mode.map fun m => min (max (m - bound) 0) 1

/-- what the caller sees: the parameter of the returned Dirichlet and the two warnings -/
structure Out where
  alpha : List ℝ
  normalised : Bool
  modeWarning : Bool

/-- `(alpha - 1) / (alpha.sum() - len(alpha))` (dirichlet_mode.py:72 and
continuous_multivariate.py:89-94) -/
noncomputable def calculatedMode (alpha : List ℝ) : List ℝ :=
  alpha.map fun a => (a - 1) / (alpha.sum - alpha.length)

/-- `Dirichlet.mode` (continuous_multivariate.py:89-94) -/
noncomputable def dirichletModeOf (alpha : List ℝ) : Option (List ℝ) :=
  if alpha.all fun a => decide (a > 1) then some (calculatedMode alpha) else none

/-- dirichlet_mode.py:71-79 -/
noncomputable def finish (mode : List ℝ) (w : Bool) (tau : ℝ) : Out :=
  let alpha := alphaOf mode tau
  ⟨alpha, w, (mode.zip (calculatedMode alpha)).any fun p => decide (p.1 - p.2 > 1 / 100)⟩

/-- dirichlet_mode.py:45-84: the call returns `out` (the search is a `while` loop; without termination
there is no `out`) -/
def Returns (cdf : ℝ → ℝ → ℝ → Option ℝ) (mode : List ℝ) (mass bound : ℝ) (out : Out) : Prop :=
  ∃ m w tau, prepare mass mode = .ok (m, w) ∧
    Loop.Ends (searching (probApprox cdf (lowBounds m bound) m) ((1 - mass) / 2))
      (nextTau (probApprox cdf (lowBounds m bound) m) ((1 - mass) / 2)) 1 tau ∧
    out = finish m w tau

end Verif.Dirichlet
