import Verif.Model.Interval

/-!
# Numerical moments and entropy of `Truncated`, discrete bases

truncated.py:82-118 and 147-153, distribution_helper.py:86-105.  A continuous base goes through
`np.trapezoid` on a grid of reals: `Model/ContMoments.lean`.
-/

namespace Verif.TruncatedMoments
open Verif Verif.Modifier Verif.Interval

/-- truncated.py:76-79 -/
noncomputable def truncSupport (b : Base) (lower upper : EReal) : EReal × EReal :=
  (max b.lo lower, min b.hi upper)

/-- `int(x)` when `x` may be NaN (ValueError) -/
noncomputable def pyIntOpt : Option EReal → Except Err ℤ
  | none => .error .valueError
  | some x => pyInt x

/-- distributions.py:608-630 with the `ppf` of the truncated distribution -/
noncomputable def truncEndpoints (b : Base) (lower upper : EReal) (s : Support) :
    Except Err (Option EReal × Option EReal) :=
  let support := truncSupport b lower upper
  match s with
  | .pair l u => .ok (some l, some u)
  | .other => .error .valueError
  | .full =>
    .ok (if support.1 = ⊤ ∨ support.1 = ⊥ then truncPpf b lower upper 0.0001 else some support.1,
         if support.2 = ⊤ ∨ support.2 = ⊥ then truncPpf b lower upper 0.9999 else some support.2)
  | .restricted => .ok (truncPpf b lower upper 0.0001, truncPpf b lower upper 0.9999)

/-- distributions.py:632-661 for a discrete truncated distribution, default number of points -/
noncomputable def truncXvals (b : Base) (lower upper : EReal) (s : Support) : Except Err (List ℤ) := do
  let (l, u) ← truncEndpoints b lower upper s
  let u ← pyIntOpt u
  let l ← pyIntOpt l
  return discreteXvals l u 200

/-- `np.sum(f(x_values) * pdf)` -/
noncomputable def gridSum (b : Base) (lower upper : EReal) (f : ℝ → ℝ) (xs : List ℤ) : ℝ :=
  (xs.map fun (x : ℤ) => f (x : ℝ) * truncPdf b lower upper (x : ℝ)).sum

/-- truncated.py:82-88 -/
noncomputable def truncMean (b : Base) (lower upper : EReal) : Except Err ℝ := do
  let xs ← truncXvals b lower upper .full
  return gridSum b lower upper (fun x => x) xs

/-- truncated.py:103-109 -/
noncomputable def truncVar (b : Base) (lower upper : EReal) : Except Err ℝ := do
  let xs ← truncXvals b lower upper .full
  let m ← truncMean b lower upper
  return gridSum b lower upper (fun x => (x - m) ^ 2) xs

/-- truncated.py:111-112 (the sum is never negative) -/
noncomputable def truncStd (b : Base) (lower upper : EReal) : Except Err ℝ := do
  let v ← truncVar b lower upper
  return Real.sqrt v

/-- distribution_helper.py:86-94; a zero standard deviation gives NaN (`none`) -/
noncomputable def truncSkewness (b : Base) (lower upper : EReal) : Except Err (Option ℝ) := do
  let m ← truncMean b lower upper
  let s ← truncStd b lower upper
  let xs ← truncXvals b lower upper .full
  return if s = 0 then none else some (gridSum b lower upper (fun x => ((x - m) / s) ^ 3) xs)

/-- distribution_helper.py:97-105; a zero standard deviation gives NaN (`none`) -/
noncomputable def truncKurtosis (b : Base) (lower upper : EReal) : Except Err (Option ℝ) := do
  let m ← truncMean b lower upper
  let s ← truncStd b lower upper
  let xs ← truncXvals b lower upper .full
  return if s = 0 then none else some (gridSum b lower upper (fun x => ((x - m) / s) ^ 4) xs - 3)

/-- truncated.py:100-101 -/
noncomputable def truncMedian (b : Base) (lower upper : EReal) : Option EReal := truncPpf b lower upper 0.5

/-- `np.exp(logpdf) * logpdf`, NaN (`none`) where the log-density is `-inf` -/
noncomputable def entropyTerm : Option ℝ → Option ℝ
  | none => none
  | some v => some (Real.exp v * v)

/-- a sum in which one NaN makes the result NaN -/
def nanSum (ts : List (Option ℝ)) : Option ℝ :=
  if ts.any Option.isNone then none else some (ts.filterMap id).sum

/-- truncated.py:147-153 -/
noncomputable def truncEntropy (b : Base) (lower upper : EReal) : Except Err (Option ℝ) := do
  let xs ← truncXvals b lower upper .restricted
  return (nanSum (xs.map fun (x : ℤ) => entropyTerm (truncLogpdf b lower upper (x : ℝ)))).map fun t => -t

end Verif.TruncatedMoments
