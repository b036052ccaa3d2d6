import Verif.Model.Param
import Mathlib.Data.EReal.Basic

/-!
# Numerical maximum likelihood

internal/optimization.py:239-251 (`optimize_ml`) for the families that have more than one parametrisation.

* `scipy.optimize.minimize` is an argument: it is given the objective, the starting point and the bounds.
* the log-density of a family is an argument: a function of the attributes that hold the first parametrisation.
* `_fit_moments` is an argument.
-/

namespace Verif.Param
open Verif

/-- bounds of the optimiser -/
abbrev Box := List (EReal × EReal)

/-- `params_support`, which `_parametrization` sets together with `param_names`:
asymmetric_laplace.py:76-83, bernoulli.py:61-66, beta.py:86-101, gamma.py:81-87, inversegamma.py:79-85,
halfstudentt.py:88-94, studentt.py:84-90, skewnormal.py:82-88, skew_studentt.py:86-91, negativebinomial.py:86-92,
zi_negativebinomial.py:91-97, rice.py:71-77, wald.py:72-83 -/
noncomputable def paramsSupport : Family → List String → Box
  | .beta, names =>
    if names = ["mu", "sigma"] then [((eps : ℝ), ((1 - eps : ℝ) : EReal)), ((eps : ℝ), ((1 - eps : ℝ) : EReal))]
    else if names = ["mu", "nu"] then [((eps : ℝ), ((1 - eps : ℝ) : EReal)), ((eps : ℝ), ⊤)]
    else [((eps : ℝ), ⊤), ((eps : ℝ), ⊤)]
  | .asymmetricLaplace, names =>
    if names = ["q", "mu", "b"] then [((eps : ℝ), ((1 - eps : ℝ) : EReal)), (⊥, ⊤), ((eps : ℝ), ⊤)]
    else [((eps : ℝ), ⊤), (⊥, ⊤), ((eps : ℝ), ⊤)]
  | .bernoulli, _ => [((eps : ℝ), ((1 : ℝ) : EReal))]
  | .gamma, _ | .inverseGamma, _ | .halfStudentT, _ | .negativeBinomial, _ | .rice, _ | .wald, _ =>
    [((eps : ℝ), ⊤), ((eps : ℝ), ⊤)]
  | .studentT, _ => [((eps : ℝ), ⊤), (⊥, ⊤), ((eps : ℝ), ⊤)]
  | .skewNormal, _ => [(⊥, ⊤), ((eps : ℝ), ⊤), (⊥, ⊤)]
  | .skewStudentT, _ => [(⊥, ⊤), ((eps : ℝ), ⊤), ((eps : ℝ), ⊤), ((eps : ℝ), ⊤)]
  | .ziNegativeBinomial, _ => [((eps : ℝ), ((1 - eps : ℝ) : EReal)), ((eps : ℝ), ⊤), ((eps : ℝ), ⊤)]
  | _, _ => []

/-- the attributes the log-density is computed from -/
def densityAttrs : Family → List String
  | .beta => ["alpha", "beta"]
  | .asymmetricLaplace => ["kappa", "mu", "b"]
  | .bernoulli => ["p"]
  | .gamma | .inverseGamma => ["alpha", "beta"]
  | .halfStudentT => ["nu", "sigma"]
  | .studentT => ["nu", "mu", "sigma"]
  | .skewNormal => ["mu", "sigma", "alpha"]
  | .skewStudentT => ["mu", "sigma", "a", "b"]
  | .negativeBinomial => ["mu", "alpha"]
  | .ziNegativeBinomial => ["psi", "mu", "alpha"]
  | .rice => ["nu", "sigma"]
  | .wald => ["mu", "lam"]
  | _ => []

/-- optimization.py:240-242: the objective -/
noncomputable def negll (f : Family) (logpdf : List ℝ → ℝ → ℝ) (o : Obj) (sample params : List ℝ) : Except Err ℝ := do
  let o ← update f params o
  return -(sample.map fun x => logpdf ((densityAttrs f).map fun k => (o.attr k).getD 0) x).sum

/-- optimization.py:239-251; the distribution `_fit_mle` leaves behind -/
noncomputable def optimizeMl (minimize : (List ℝ → Except Err ℝ) → List (Option ℝ) → Box → Except Err (List ℝ))
    (f : Family) (logpdf : List ℝ → ℝ → ℝ) (fitMoments : Obj → Except Err Obj) (o : Obj) (sample : List ℝ) :
    Except Err Obj := do
  let o ← fitMoments o
  let initVals := o.params.getD []
  let x ← minimize (negll f logpdf o sample) initVals (paramsSupport f o.names)
  update f x o

end Verif.Param
