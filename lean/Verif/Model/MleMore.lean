import Verif.Model.Mle
import Verif.Model.Interval
import Mathlib.Analysis.SpecialFunctions.Pow.Real

/-!
# Fits of VonMises, ExGaussian and the starting point of SkewNormal

distributions/vonmises.py:123-128, distributions/exgaussian.py:133-139, distributions/skewnormal.py:163-165,
internal/optimization.py:529-542.
-/

namespace Verif.Mle
open Verif

/-- `np.mod` with a positive divisor -/
noncomputable def npMod (a b : ℝ) : ℝ := a - b * ⌊a / b⌋

/-- scipy's `circmean` on `[0, 2π)`: the angle of the sum of the unit vectors, NaN (`none`) for no data -/
noncomputable def circmean (data : List ℝ) : Option ℝ :=
  if data = [] then none
  else
    let res := Complex.arg (⟨(data.map Real.cos).sum, (data.map Real.sin).sum⟩ : ℂ)
    some (if res < 0 then res + 2 * Real.pi else res)

/-- `np.finfo(float).tiny` -/
noncomputable def tiny : ℝ := 2 ^ (-1022 : ℤ)

/-- optimization.py:529-542; `root ere` is what `root_scalar` returns for `i1e(kappa) / i0e(kappa) = ere` -/
noncomputable def findKappa (root : ℝ → Except Err ℝ) (data : List ℝ) (mu : ℝ) : Except Err ℝ :=
  let ere := (data.map fun x => Real.cos (mu - x)).sum / data.length
  if ere > 0 then root ere else .ok tiny

/-- optimization.py:534-540: the equation that `root_scalar` solves between the smallest float and 1e16; `ratio` is
`i1e(kappa) / i0e(kappa)` -/
noncomputable def kappaRoot (brentq : (ℝ → ℝ) → ℝ → ℝ → Except Err ℝ) (ratio : ℝ → ℝ) (ere : ℝ) : Except Err ℝ :=
  brentq (fun kappa => ratio kappa - ere) tiny 1e16

/-- vonmises.py:123-128: `none` for no data (both parameters are then NaN and the smallest float) -/
noncomputable def vonMisesFit (root : ℝ → Except Err ℝ) (sample : List ℝ) : Except Err (Option (ℝ × ℝ)) :=
  let data := sample.map fun x => npMod x (2 * Real.pi)
  match circmean data with
  | none => .ok none
  | some mu => do
    let kappa ← findKappa root data mu
    let mu := npMod (mu + Real.pi) (2 * Real.pi) - Real.pi
    return some (mu, kappa)

/-- scipy's `skew` (biased); NaN for data without spread -/
noncomputable def sampleSkew (l : List ℝ) : Option ℝ :=
  let mean : ℝ := l.sum / l.length
  let m2 : ℝ := (l.map fun x => (x - mean) ^ 2).sum / l.length
  let m3 : ℝ := (l.map fun x => (x - mean) ^ 3).sum / l.length
  if m2 = 0 then none else some (m3 / m2 ^ (1.5 : ℝ))

/-- Python's `max(1e-4, v)`: a comparison with NaN is false -/
noncomputable def maxSkew : Option ℝ → ℝ
  | none => 1e-4
  | some v => if v > 1e-4 then v else 1e-4

/-- exgaussian.py:133-139: `mu`, `sigma` (NaN for a negative variance) and `nu` -/
noncomputable def exGaussianFit (sample : List ℝ) : Except Err (ℝ × Option ℝ × ℝ) := do
  let (mean, std) ← meanAndStd sample
  let skewness := maxSkew (sampleSkew sample)
  let nu := std * (skewness / 2) ^ (1 / 3 : ℝ)
  let mu := mean - nu
  let var := std ^ 2 * (1 - (skewness / 2) ^ (2 / 3 : ℝ))
  return (mu, if var < 0 then none else some (Real.sqrt var), nu)

/-- skewnormal.py:163-165: the value stored in `alpha` before the numerical fit (`none`: not a finite number) -/
noncomputable def skewNormalStart (sample : List ℝ) : Option ℝ :=
  (sampleSkew sample).bind fun s => if 1 - s ^ 2 ≤ 0 then none else some (s / Real.sqrt (1 - s ^ 2))

end Verif.Mle
