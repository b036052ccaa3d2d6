import Verif.Model.Interval

/-!
# `continuous_hdi` (internal/optimization.py:317-344) and the continuous branch of `find_hdi` (282-283)

`scipy.optimize.minimize` is an arbitrary function of the objective, the equality constraint, the
bounds (the same pair for both coordinates) and the starting point.
-/

namespace Verif.Hdi
open Verif Verif.Modifier

/-- optimization.py:320-323 -/
def intervalLoss (cdf : ℝ → ℝ) (censoredMass mass : ℝ) (x : ℝ × ℝ) : ℝ :=
  (cdf x.2 - cdf x.1 + censoredMass) - mass

/-- optimization.py:325-328 -/
noncomputable def intervalShort (x : ℝ × ℝ) : EReal :=
  if x.2 < x.1 then ⊤ else ((x.2 - x.1 : ℝ) : EReal)

abbrev Minimize := (ℝ × ℝ → EReal) → (ℝ × ℝ → ℝ) → EReal × EReal → EReal × EReal → ℝ × ℝ

/-- optimization.py:317-344 for an ordinary distribution -/
noncomputable def continuousHdi (minimize : Minimize) (b : Base) (mass : ℝ) : ℝ × ℝ :=
  minimize intervalShort (intervalLoss (fun x => b.cdf x) 0 mass) (b.lo, b.hi)
    (b.ppf ((1 - mass) / 2), b.ppf (1 - (1 - mass) / 2))

/-- `dist.pdf` of a censored distribution at a bound; zero at an infinite one -/
noncomputable def censPdfAt (b : Base) (lower upper x : EReal) : ℝ :=
  if x = ⊤ ∨ x = ⊥ then 0 else censPdf b lower upper x.toReal

/-- optimization.py:317-344 for a censored distribution; the bounds are those kept by the object, which
are also its support (censored.py:79-83) -/
noncomputable def censoredHdi (minimize : Minimize) (b : Base) (lower upper : EReal) (mass : ℝ) : ℝ × ℝ :=
  minimize intervalShort
    (intervalLoss (censCdf b lower upper)
      (censPdfAt b lower upper lower + censPdfAt b lower upper upper) mass)
    (lower, upper) (censPpf b lower upper ((1 - mass) / 2), censPpf b lower upper (1 - (1 - mass) / 2))

end Verif.Hdi
