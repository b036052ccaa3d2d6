import Verif.Model.Modifier

/-!
# Entropy of a censored distribution (preliz/distributions/censored.py:196-215)
-/

namespace Verif.Modifier
open Verif

/-- special.py:92-97 -/
noncomputable def xlogx (x : ℝ) : ℝ := if x = 0 then 0 else x * Real.log x

/-- censored.py:200-201: `np.nan_to_num(dist.pdf(bound))`; at an infinite bound the density is zero or NaN -/
noncomputable def pdfAt (b : Base) (e : EReal) : ℝ := if e = ⊤ ∨ e = ⊥ then 0 else b.pdf e.toReal

/-- censored.py:196-215; `t` is the entropy of the truncated distribution (computed on a grid there) -/
noncomputable def censEntropy (b : Base) (lower upper : EReal) (t : ℝ) : ℝ :=
  let pLowInc := b.cdf lower
  let pUp := 1 - b.cdf upper
  let pLow := if b.discrete then pLowInc - pdfAt b lower else pLowInc
  let pUpInc := if b.discrete then pUp + pdfAt b upper else pUp
  let xl := if b.discrete then xlogx pLow else 0
  let xu := if b.discrete then xlogx pUp else 0
  let pInt := 1 - (pLow + pUp)
  let bound := -(xlogx pLowInc + xlogx pUpInc)
  let interval := t * pInt - xlogx pInt + xl + xu
  interval + bound

end Verif.Modifier
