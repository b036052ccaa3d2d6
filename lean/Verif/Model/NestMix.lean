import Verif.Model.NestLaw

/-!
# Hurdle and Mixture around modified distributions

As in `Model/NestLaw`, the wrapped objects are known by their functions only.
-/

namespace Verif.NestLaw
open Verif Verif.Modifier

/-- hurdle.py:72, 123-162; in `pdf`, `cdf` and `logpdf` the branch with `eps` always runs (see `Model/Modifier`) -/
noncomputable def hurdleF (psi : ℝ) (f : Fns) : Fns :=
  { discrete := f.discrete
    lo := f.lo
    hi := f.hi
    logpdf := fun x =>
      if x = 0 then logOf (1 - psi)
      else (logOf psi).bind fun lp => (f.logpdf x).map fun v => lp + v - Real.log (1 - f.cdf (eps : ℝ))
    cdf := fun x => if x ≤ 0 then 1 - psi else 1 - psi * (1 - f.cdf x) / (1 - f.cdf (eps : ℝ))
    ppf := fun q =>
      let lower : ℝ := if f.discrete then 0 else eps
      let lcdf := f.cdf lower
      let vals := if q ≥ 1 - psi then f.ppf (lcdf + (q - (1 - psi)) * (1 - lcdf) / psi) else some 0
      if q < 0 ∨ q > 1 then none else vals }

/-- hurdle.py:113-121: `pdf` is not computed from `logpdf` -/
noncomputable def hurdlePdfF (psi : ℝ) (f : Fns) (x : ℝ) : ℝ :=
  if x = 0 then 1 - psi else psi * f.pdf x / (1 - f.cdf (eps : ℝ))

/-- mixture.py:66-71, 82-94; `kind` is that of the components (mixture.py:42-47), `ppf` is computed by `find_ppf`, here a
parameter -/
noncomputable def mixF (discrete : Bool) (ppf : ℝ → Option EReal) (fs : List Fns) (ws : List ℝ) : Fns :=
  { discrete := discrete
    lo := (fs.map Fns.lo).foldr min ⊤
    hi := (fs.map Fns.hi).foldr max ⊥
    logpdf := fun x =>
      let terms := List.zipWith (fun (f : Fns) w => (logOf w).bind fun lw => (f.logpdf x).map fun v => lw + v)
        fs (mixWeights ws)
      logOf ((terms.map expOf).sum)
    cdf := fun x => (List.zipWith (fun (f : Fns) w => f.cdf x * w) fs (mixWeights ws)).sum
    ppf := ppf }

/-- mixture.py:77-80: `pdf` is not computed from `logpdf` -/
noncomputable def mixPdfF (fs : List Fns) (ws : List ℝ) (x : ℝ) : ℝ :=
  (List.zipWith (fun (f : Fns) w => f.pdf x * w) fs (mixWeights ws)).sum

/-- truncated.py:120-122 and hurdle.py:109-111: `ppf` of uniform numbers; `us` is what `random_state.uniform` returned -/
noncomputable def inverseRvs (f : Fns) (us : List ℝ) : List (Option EReal) := us.map f.ppf

/-- censored.py:169-170, around an object that draws through its `ppf` -/
noncomputable def censInverseRvs (lower upper : EReal) (f : Fns) (us : List ℝ) : List (Option EReal) :=
  (inverseRvs f us).map fun r => r.map (clip (max f.lo lower) (min f.hi upper))

end Verif.NestLaw
