import Verif.Model.GridMoments
import Verif.Model.Roulette

/-!
# Moments that `Truncated`, `Hurdle` and `Mixture` compute on a grid, continuous bases

truncated.py:82-118 and 147-153, hurdle.py:77-107 and 164-170, mixture.py:96-105 and 130-134,
distribution_helper.py:86-105: the values of the density on 1000 equally spaced points, integrated with
`np.trapezoid`.  A result that is NaN is `none`.
-/

namespace Verif.ContMoments
open Verif Verif.Modifier Verif.Interval Verif.TruncatedMoments Verif.GridMoments Verif.Roulette

/-- `np.trapezoid(y, x)`, points given as pairs `(x, y)` -/
noncomputable def trapezoid (pts : List (ℝ × ℝ)) : ℝ :=
  (List.zipWith (fun p q => (q.1 - p.1) * (p.2 + q.2) / 2) pts pts.tail).sum

/-- `np.trapezoid(f(x_values), x_values)` on `np.linspace(a, b, 1000)` -/
noncomputable def gridIntegral (f : ℝ → ℝ) (a b : ℝ) : ℝ :=
  trapezoid ((linspace a b 1000).map fun x => (x, f x))

/-- an end of the grid; an infinite or missing one makes every value on the grid NaN -/
noncomputable def finite : Option EReal → Option ℝ
  | none => none
  | some x => if x = ⊤ ∨ x = ⊥ then none else some x.toReal

/-- distributions.py:608-630 with `support="full"`, for a distribution with this support and quantile function -/
noncomputable def fullEnds (lo hi : EReal) (ppf : ℝ → Option EReal) : Option (ℝ × ℝ) :=
  match finite (if lo = ⊤ ∨ lo = ⊥ then ppf 0.0001 else some lo),
    finite (if hi = ⊤ ∨ hi = ⊥ then ppf 0.9999 else some hi) with
  | some a, some b => some (a, b)
  | _, _ => none

/-- truncated.py:82-88, hurdle.py:77-83 -/
noncomputable def contMean (ends : Option (ℝ × ℝ)) (pdf : ℝ → ℝ) : Option ℝ :=
  ends.map fun e => gridIntegral (fun x => x * pdf x) e.1 e.2

/-- truncated.py:103-109, hurdle.py:98-104 -/
noncomputable def contVar (ends : Option (ℝ × ℝ)) (pdf : ℝ → ℝ) : Option ℝ :=
  match ends, contMean ends pdf with
  | some e, some m => some (gridIntegral (fun x => (x - m) ^ 2 * pdf x) e.1 e.2)
  | _, _ => none

/-- distribution_helper.py:86-105: the standardised moment of order `k`, given mean and standard deviation (before the
subtraction of 3 for the kurtosis); a standard deviation of zero gives NaN -/
noncomputable def contStandard (k : ℕ) (ends : Option (ℝ × ℝ)) (pdf : ℝ → ℝ) (m s : Option ℝ) : Option ℝ :=
  match ends, m, s with
  | some e, some m, some s =>
    if s = 0 then none else some (gridIntegral (fun x => ((x - m) / s) ^ k * pdf x) e.1 e.2)
  | _, _, _ => none

/-- truncated.py:76-79 and 83 -/
noncomputable def truncEnds (b : Base) (lower upper : EReal) : Option (ℝ × ℝ) :=
  fullEnds (truncSupport b lower upper).1 (truncSupport b lower upper).2 (truncPpf b lower upper)

/-- truncated.py:82-88 -/
noncomputable def truncMeanC (b : Base) (lower upper : EReal) : Option ℝ :=
  contMean (truncEnds b lower upper) (truncPdf b lower upper)

/-- truncated.py:103-109 -/
noncomputable def truncVarC (b : Base) (lower upper : EReal) : Option ℝ :=
  contVar (truncEnds b lower upper) (truncPdf b lower upper)

/-- truncated.py:114-118, before the subtraction of 3 for the kurtosis -/
noncomputable def truncStandardC (k : ℕ) (b : Base) (lower upper : EReal) : Option ℝ :=
  contStandard k (truncEnds b lower upper) (truncPdf b lower upper) (truncMeanC b lower upper)
    ((truncVarC b lower upper).bind fun v => if v < 0 then none else some (Real.sqrt v))

/-- distributions.py:608-630 with `support="restricted"` -/
noncomputable def restrictedEnds (ppf : ℝ → Option EReal) : Option (ℝ × ℝ) :=
  match finite (ppf 0.0001), finite (ppf 0.9999) with
  | some a, some b => some (a, b)
  | _, _ => none

/-- truncated.py:147-153; a point of the grid with density zero makes the result NaN -/
noncomputable def truncEntropyC (b : Base) (lower upper : EReal) : Option ℝ :=
  (restrictedEnds (truncPpf b lower upper)).bind fun e =>
    if (linspace e.1 e.2 1000).any (fun x => (truncLogpdf b lower upper x).isNone) then none
    else some (-gridIntegral (fun x => truncPdf b lower upper x * (truncLogpdf b lower upper x).getD 0) e.1 e.2)

/-- hurdle.py:74 and 78 -/
noncomputable def hurdleEnds (b : Base) (psi : ℝ) : Option (ℝ × ℝ) := fullEnds b.lo b.hi (hurdlePpf b psi)

/-- hurdle.py:77-83 -/
noncomputable def hurdleMeanC (b : Base) (psi : ℝ) : Option ℝ := contMean (hurdleEnds b psi) (hurdlePdf b psi)

/-- hurdle.py:98-104 -/
noncomputable def hurdleVarC (b : Base) (psi : ℝ) : Option ℝ := contVar (hurdleEnds b psi) (hurdlePdf b psi)

/-- mixture.py:130-134: `mvs` are the means and variances of the components, `ppf` the outcome of `find_ppf` -/
noncomputable def mixStandardC (k : ℕ) (bs : List Base) (mvs : List (ℝ × ℝ)) (ws : List ℝ) (ppf : ℝ → Option EReal) :
    Except Err (Option ℝ) := do
  let (lo, hi) ← mixSupport bs
  return contStandard k (fullEnds lo hi ppf) (mixPdf bs ws) (some (mixMean (mvs.map Prod.fst) ws)) (mixStd mvs ws)

/-- hurdle.py:164-170; a point of the grid with density zero makes the result NaN -/
noncomputable def hurdleEntropyC (b : Base) (psi : ℝ) : Option ℝ :=
  (restrictedEnds (hurdlePpf b psi)).bind fun e =>
    if (linspace e.1 e.2 1000).any (fun x => (hurdleLogpdf b psi x).isNone) then none
    else some (-gridIntegral (fun x => expOf (hurdleLogpdf b psi x) * (hurdleLogpdf b psi x).getD 0) e.1 e.2)

/-- mixture.py:96-105: terms that are not finite count as zero; `ppf` is the outcome of `find_ppf` -/
noncomputable def mixEntropyC (bs : List Base) (ws : List ℝ) (ppf : ℝ → Option EReal) : Option ℝ :=
  (restrictedEnds ppf).map fun e =>
    -gridIntegral (fun x => expOf (mixLogpdf bs ws x) * (mixLogpdf bs ws x).getD 0) e.1 e.2

end Verif.ContMoments
