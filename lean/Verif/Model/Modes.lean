import Verif.Model.ContMoments

/-!
# Modes of `Truncated`, `Censored`, `Hurdle` and of the families without a formula for theirs

truncated.py:90-98, censored.py:96-104, hurdle.py:85-93, distributions.py:1152-1153 (`ExGaussian`, `Rice`,
`SkewNormal`, `SkewStudentT`), optimization.py:545-583.  `scipy.optimize.minimize_scalar` is a parameter.
-/

namespace Verif.Modes
open Verif Verif.Modifier Verif.Interval Verif.TruncatedMoments Verif.GridMoments Verif.ContMoments

/-! ## Discrete -/

/-- truncated.py:91-94 -/
noncomputable def truncMode (b : Base) (lower upper : EReal) : Except Err ℤ := do
  let xs ← truncXvals b lower upper .full
  findDiscreteMode (fun k => truncPdf b lower upper (k : ℝ)) xs

/-- the grid of a censored distribution; its support is the pair of bounds it keeps (censored.py:79-84) -/
noncomputable def censXvals (b : Base) (lower upper : EReal) : Except Err (List ℤ) :=
  gridXvals (censBounds b lower upper).1 (censBounds b lower upper).2
    (fun q => some (censPpf b (censBounds b lower upper).1 (censBounds b lower upper).2 q)) .full

/-- censored.py:97-100 -/
noncomputable def censMode (b : Base) (lower upper : EReal) : Except Err ℤ := do
  let xs ← censXvals b lower upper
  findDiscreteMode (fun k => censPdf b (censBounds b lower upper).1 (censBounds b lower upper).2 (k : ℝ)) xs

/-- hurdle.py:86-89 -/
noncomputable def hurdleMode (b : Base) (psi : ℝ) : Except Err ℤ := do
  let xs ← hurdleXvals b psi .full
  findDiscreteMode (fun k => hurdlePdf b psi (k : ℝ)) xs

/-! ## Continuous -/

/-- `minimize_scalar(f, bounds=(a, c), method="bounded").x` for finite `a ≤ c` -/
abbrev Minimizer := (ℝ → ℝ) → ℝ × ℝ → ℝ

/-- optimization.py:545-565; bounds that are not finite or not in order raise ValueError -/
noncomputable def findMode (minimize : Minimizer) (pdf : ℝ → ℝ) : Option (ℝ × ℝ) → Except Err ℝ
  | none => .error .valueError
  | some e => if e.2 < e.1 then .error .valueError else .ok (minimize (fun x => -pdf x) e)

/-- distributions.py:1152-1153 -/
noncomputable def baseModeC (minimize : Minimizer) (b : Base) : Except Err ℝ :=
  findMode minimize b.pdf (fullEnds b.lo b.hi fun q => some (b.ppf q))

/-- truncated.py:95-98 -/
noncomputable def truncModeC (minimize : Minimizer) (b : Base) (lower upper : EReal) : Except Err ℝ :=
  findMode minimize (truncPdf b lower upper) (truncEnds b lower upper)

/-- the ends of the interval searched for a censored distribution -/
noncomputable def censEnds (b : Base) (lower upper : EReal) : Option (ℝ × ℝ) :=
  fullEnds (censBounds b lower upper).1 (censBounds b lower upper).2
    fun q => some (censPpf b (censBounds b lower upper).1 (censBounds b lower upper).2 q)

/-- censored.py:101-104 -/
noncomputable def censModeC (minimize : Minimizer) (b : Base) (lower upper : EReal) : Except Err ℝ :=
  findMode minimize (censPdf b (censBounds b lower upper).1 (censBounds b lower upper).2) (censEnds b lower upper)

/-- hurdle.py:90-93 -/
noncomputable def hurdleModeC (minimize : Minimizer) (b : Base) (psi : ℝ) : Except Err ℝ :=
  findMode minimize (hurdlePdf b psi) (hurdleEnds b psi)

end Verif.Modes
