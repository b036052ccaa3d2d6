import Verif.Model.Param

/-!
# `Distribution.info()` (distributions/distributions.py:123-151)

Only the two entries that depend on the parametrisation are modelled: `parametrizations` and
`parametrization_values`.  The other entries are copies of attributes.
-/

namespace Verif.Info

open Verif Verif.Param

/-- The class attribute `parametrizations`; `none` is "the class has no such attribute":
asymmetric_laplace.py:65, bernoulli.py:50, beta.py:73, exponential.py:51, gamma.py:68, halfnormal.py:59,
halfstudentt.py:75, inversegamma.py:66, logitnormal.py:58, negativebinomial.py:75, normal.py:64,
studentt.py:70, wald.py:59.  (categorical.py:40 has one too; Categorical is not a `Family`.) -/
def parametrizations : Family → Option (List (List String))
  | .asymmetricLaplace => some [["kappa", "mu", "b"], ["q", "mu", "b"]]
  | .bernoulli => some [["p"], ["logit_p"]]
  | .beta => some [["alpha", "beta"], ["mu", "sigma"], ["mu", "nu"]]
  | .exponential => some [["lam"], ["scale"]]
  | .gamma => some [["alpha", "beta"], ["mu", "sigma"]]
  | .halfNormal => some [["sigma"], ["tau"]]
  | .halfStudentT => some [["nu", "sigma"], ["nu", "lam"]]
  | .inverseGamma => some [["alpha", "beta"], ["mu", "sigma"]]
  | .logitNormal => some [["mu", "sigma"], ["mu", "tau"]]
  | .negativeBinomial => some [["mu", "alpha"], ["p", "n"]]
  | .normal => some [["mu", "sigma"], ["mu", "tau"]]
  | .studentT => some [["nu", "mu", "sigma"], ["nu", "mu", "lam"]]
  | .wald => some [["mu", "lam"], ["mu", "phi"], ["lam", "phi"]]
  | _ => none

/-- `info()["parametrization_values"]` (lines 142-149): a dictionary from parameter tuples to the
tuples of attribute values, as an association list; `none` is "no such key".  An attribute that is
`nan` is `none`. -/
def parametrizationValues (f : Family) (o : Obj) : Option (List (List String × List (Option ℝ))) :=
  match parametrizations f with
  | none => none
  | some l => if o.frozen then some (l.map fun ps => (ps, ps.map o.attr)) else none

end Verif.Info
