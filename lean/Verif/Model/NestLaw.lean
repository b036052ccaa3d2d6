import Verif.Model.Modifier
import Verif.Model.Nest

/-!
# The functions of nested modifiers

`Model/Modifier` has Truncated and Censored around a distribution that meets its contract.  Here the same lines of code are
read for an arbitrary inner object, known by its functions only, so that they can be nested.
-/

namespace Verif.NestLaw
open Verif Verif.Modifier

/-- what a modifier uses of the object it wraps: `kind`, `support`, `logpdf`, `cdf`, `ppf` (`none` is NaN) -/
structure Fns where
  discrete : Bool
  lo : EReal
  hi : EReal
  logpdf : ℝ → Option ℝ
  cdf : EReal → ℝ
  ppf : ℝ → Option EReal

/-- `pdf` of a modifier: truncated.py:124-125, censored.py:172-173 -/
noncomputable def Fns.pdf (f : Fns) (x : ℝ) : ℝ := expOf (f.logpdf x)

/-- a family; for levels outside [0, 1] its `ppf` is NaN -/
noncomputable def ofBase (b : Base) : Fns :=
  ⟨b.discrete, b.lo, b.hi, b.logpdf, b.cdf, fun q => if q < 0 ∨ q > 1 then none else some (b.ppf q)⟩

/-- truncated.py:74-77 and 127-145 -/
noncomputable def truncF (lower upper : EReal) (f : Fns) : Fns :=
  let low := adjustLower f.discrete lower
  { discrete := f.discrete
    lo := max f.lo lower
    hi := min f.hi upper
    logpdf := fun x =>
      let vals := (f.logpdf x).map fun v => v - Real.log (f.cdf upper - f.cdf low)
      if (x : EReal) < lower ∨ (x : EReal) > upper then none else vals
    cdf := fun x =>
      let vals := (f.cdf x - f.cdf low) / (f.cdf upper - f.cdf low)
      if x < low then 0 else if x > upper then 1 else vals
    ppf := fun q =>
      let vals := f.ppf (f.cdf low + q * (f.cdf upper - f.cdf low))
      if q < 0 ∨ q > 1 then none else vals }

/-- censored.py:79-83 and 175-194 -/
noncomputable def censF (lower upper : EReal) (f : Fns) : Fns :=
  let lower := max f.lo lower
  let upper := min f.hi upper
  { discrete := f.discrete
    lo := lower
    hi := upper
    logpdf := fun x =>
      let vals := f.logpdf x
      let vals := if (x : EReal) < lower ∨ (x : EReal) > upper then none else vals
      let vals := if (x : EReal) = lower then logOf (f.cdf lower) else vals
      if f.discrete then
        if (x : EReal) = upper then logOf (1 - f.cdf (upper - 1)) else vals
      else
        if (x : EReal) = upper then logOf (1 - f.cdf upper) else vals
    cdf := fun x => if x < lower then 0 else if x > upper then 1 else f.cdf x
    ppf := fun q => (f.ppf q).map (clip lower upper) }

/-- the functions of a nest of Truncated and Censored objects that hold the given arguments, outermost first; `none` if an
object is a Hurdle or lacks a bound -/
noncomputable def fnsOf (base : Fns) : List Nest.Layer → Option Fns
  | [] => some base
  | L :: Ls =>
    match L.kind, L.own, fnsOf base Ls with
    | .truncated, [some (.num l), some (.num u)], some f => some (truncF l u f)
    | .censored, [some (.num l), some (.num u)], some f => some (censF l u f)
    | _, _, _ => none

end Verif.NestLaw
