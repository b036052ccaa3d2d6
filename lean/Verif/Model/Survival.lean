import Verif.Model.Modifier

/-!
# Inherited survival functions, distributions.py:266-304

`logcdf`, `sf`, `logsf` and `isf` are inherited by `Truncated`, `Censored`, `Hurdle` and `Mixture` (and by every family
that does not define its own), and only use the `cdf` and `ppf` of the object they are called on.
-/

namespace Verif.Survival
open Verif Verif.Modifier

/-- what the inherited methods use of an object; `none` is `nan` -/
structure Methods where
  cdf : ℝ → ℝ
  ppf : ℝ → Option EReal

/-- `np.log`: `nan` below zero, `-inf` at zero -/
noncomputable def npLog (p : ℝ) : Option EReal :=
  if p < 0 then none else if p = 0 then some ⊥ else some ((Real.log p : ℝ) : EReal)

/-- distributions.py:266-274 -/
noncomputable def Methods.logcdf (d : Methods) (x : ℝ) : Option EReal := npLog (d.cdf x)
/-- distributions.py:276-284 -/
noncomputable def Methods.sf (d : Methods) (x : ℝ) : ℝ := 1 - d.cdf x
/-- distributions.py:286-294 -/
noncomputable def Methods.logsf (d : Methods) (x : ℝ) : Option EReal := npLog (d.sf x)
/-- distributions.py:296-304 -/
noncomputable def Methods.isf (d : Methods) (q : ℝ) : Option EReal := d.ppf (1 - q)

/-- truncated.py: the object the methods are called on -/
noncomputable def truncated (b : Base) (l u : EReal) : Methods := ⟨truncCdf b l u, truncPpf b l u⟩
/-- censored.py -/
noncomputable def censored (b : Base) (l u : EReal) : Methods :=
  ⟨censCdf b (censBounds b l u).1 (censBounds b l u).2,
    fun q => some (censPpf b (censBounds b l u).1 (censBounds b l u).2 q)⟩
/-- hurdle.py -/
noncomputable def hurdle (b : Base) (psi : ℝ) : Methods := ⟨hurdleCdf b psi, hurdlePpf b psi⟩

end Verif.Survival
