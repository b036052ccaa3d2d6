import Verif.Spec.Law
import Mathlib.Data.EReal.Basic

/-!
# The documented truncated normal law (C109)

distributions/truncatednormal.py:13-40.  Bounds are extended reals: a missing one is infinite.
-/

namespace Verif.Spec
open MeasureTheory

/-- the points between two bounds -/
def inBounds (l u : EReal) : Set ℝ := {x | l ≤ (x : EReal) ∧ (x : EReal) ≤ u}

/-- the mass the normal law puts there: `Z`, that is `Φ(β) - Φ(α)` -/
noncomputable def massBetween (m s : ℝ) (l u : EReal) : ℝ := ∫ x in inBounds l u, normalPdf m s x

open Classical in
/-- the documented density -/
noncomputable def truncNormalPdf (m s : ℝ) (l u : EReal) (x : ℝ) : ℝ :=
  if x ∈ inBounds l u then normalPdf m s x / massBetween m s l u else 0

open Classical in
/-- `φ((b - μ) / σ)`, zero at an infinite bound -/
noncomputable def phiAt (m s : ℝ) (b : EReal) : ℝ :=
  if b = ⊥ ∨ b = ⊤ then 0 else normalPdf 0 1 ((b.toReal - m) / s)

/-- `α φ(α)`, zero at an infinite bound -/
noncomputable def alphaPhiAt (m s : ℝ) (b : EReal) : ℝ := (b.toReal - m) / s * phiAt m s b

/-- the documented mean -/
noncomputable def truncNormalMean (m s : ℝ) (l u : EReal) : ℝ :=
  m + (phiAt m s l - phiAt m s u) / massBetween m s l u * s

/-- the documented variance -/
noncomputable def truncNormalVar (m s : ℝ) (l u : EReal) : ℝ :=
  s ^ 2 * (1 + (alphaPhiAt m s l - alphaPhiAt m s u) / massBetween m s l u -
    ((phiAt m s l - phiAt m s u) / massBetween m s l u) ^ 2)

end Verif.Spec
