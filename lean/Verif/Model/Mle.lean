import Verif.Basics
import Mathlib.Data.List.Sort
import Mathlib.Algebra.Order.Floor.Ring
import Mathlib.Data.Real.Archimedean

/-!
# Closed-form maximum-likelihood fits (preliz/distributions/*.py, preliz/internal/special.py)

`none` marks a NumPy result that is not a finite number (division by zero, mean of nothing).  What a fit
returns are the arguments it hands to `_update`.
-/

namespace Verif.Mle

/-- special.py:110-121 `mean_and_std`; compiled by numba, where dividing by a zero length raises -/
noncomputable def meanAndStd (data : List ℝ) : Except Err (ℝ × ℝ) := do
  let mean ← pyDiv data.sum data.length
  let sumSqDiff := data.foldl (fun acc x => acc + (x - mean) ^ 2) 0
  let std ← pySqrt (sumSqDiff / data.length)
  .ok (mean, std)

/-- `np.mean` -/
noncomputable def npMean (l : List ℝ) : Option ℝ := if l = [] then none else some (l.sum / l.length)

/-- NumPy division -/
noncomputable def npDiv (a b : ℝ) : Option ℝ := if b = 0 then none else some (a / b)

/-- `np.min`: empty arrays are rejected -/
noncomputable def npMin : List ℝ → Except Err ℝ
  | [] => .error .valueError
  | x :: xs => .ok (xs.foldl min x)

/-- `np.max` -/
noncomputable def npMax : List ℝ → Except Err ℝ
  | [] => .error .valueError
  | x :: xs => .ok (xs.foldl max x)

/-- `np.median`: the middle value of the sorted data, or the mean of the two middle values -/
noncomputable def npMedian (l : List ℝ) : Option ℝ :=
  let s := l.insertionSort (· ≤ ·)
  if l.length = 0 then none
  else if l.length % 2 = 1 then s[l.length / 2]?
  else (s[l.length / 2 - 1]?).bind fun a => (s[l.length / 2]?).map fun b => (a + b) / 2

/-- normal.py:106-107 -/
noncomputable def normalFit (sample : List ℝ) : Except Err (ℝ × ℝ) := meanAndStd sample

/-- lognormal.py:130-132 (positive samples: the logarithm of anything else is not a number) -/
noncomputable def logNormalFit (sample : List ℝ) : Except Err (ℝ × ℝ) := meanAndStd (sample.map Real.log)

/-- special.py:72-80 `logit` strictly inside the unit interval -/
noncomputable def logit (x : ℝ) : ℝ := Real.log (x / (1 - x))

/-- logitnormal.py:154-156 (samples strictly inside the unit interval) -/
noncomputable def logitNormalFit (sample : List ℝ) : Except Err (ℝ × ℝ) := meanAndStd (sample.map logit)

/-- exponential.py:141-143: `lam` -/
noncomputable def exponentialFit (sample : List ℝ) : Option ℝ := (npMean sample).bind fun m => npDiv 1 m

/-- poisson.py:118-119: `mu` -/
noncomputable def poissonFit (sample : List ℕ) : Option ℝ := npMean (sample.map Nat.cast)

/-- geometric.py:113-115: `p` -/
noncomputable def geometricFit (sample : List ℕ) : Option ℝ :=
  (npMean (sample.map Nat.cast)).bind fun m => npDiv 1 m

/-- uniform.py:128-131 -/
noncomputable def uniformFit (sample : List ℝ) : Except Err (ℝ × ℝ) := do
  let lower ← npMin sample
  let upper ← npMax sample
  .ok (lower, upper)

/-- discrete_uniform.py:130-133 with 63-68 -/
noncomputable def discreteUniformFit (sample : List ℝ) : Except Err (ℤ × ℤ) := do
  let lower ← npMin sample
  let upper ← npMax sample
  .ok (⌊lower⌋, ⌈upper⌉)

/-- laplace.py:212-215 -/
noncomputable def laplaceFit (sample : List ℝ) : Option (ℝ × ℝ) :=
  (npMedian sample).bind fun m =>
    (npDiv ((sample.map fun x => |x - m|).sum) sample.length).map fun b => (m, b)

/-- halfnormal.py:148-149 -/
noncomputable def halfNormalFit (sample : List ℝ) : Option ℝ :=
  (npMean (sample.map fun x => x ^ 2)).map Real.sqrt

/-- triangular.py:135-139: `lower, c, upper` -/
noncomputable def triangularFit (sample : List ℝ) : Except Err (ℝ × ℝ × ℝ) := do
  let lower ← npMin sample
  let upper ← npMax sample
  match npMean sample with
  | none => .error .valueError
  | some m => .ok (lower, m * 3 - lower - upper, upper)

/-- binomial.py:229-235: `n, p`.  `none` if one of the divisions is by zero. -/
noncomputable def binomialFit (sample : List ℝ) : Except Err (Option (ℤ × ℝ)) := do
  let ms ← meanAndStd sample
  let xMax ← npMax sample
  let d := ms.1 ^ (1 / 2 : ℝ) * (xMax - ms.1) ^ (1 / 2 : ℝ)
  if d = 0 then .ok none
  else
    let n := ⌈xMax ^ (3 / 2 : ℝ) * ms.2 / d⌉
    if n = 0 then .ok none else .ok (some (n, ms.1 / n))

end Verif.Mle
