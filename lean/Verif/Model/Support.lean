import Verif.Model.Param
import Mathlib.Data.EReal.Operations
import Mathlib.Analysis.Real.Pi.Bounds

/-!
# `support` and `params_support`

Where the classes assign these two attributes (the lines `self.support = …` and `self.params_support = …` of all families in
distributions/), and what `info` reports of them (distributions.py:123-151, 1194-1207).
-/

namespace Verif.Support
open Verif Verif.Param

/-- an object with the two attributes; an upper bound `none` of a parameter is `None` -/
structure SObj where
  obj : Obj
  support : EReal × EReal
  box : List (EReal × Option EReal)

/-- the value of an attribute that is known to be a number -/
def val (o : Obj) (k : String) : ℝ := (o.attr k).getD 0

/-- the support assigned in `__init__` (for the families that assign it in `_parametrization`: not used).
asymmetric_laplace.py:69, bernoulli.py:54, beta.py:77, betabinomial.py:56, betascaled.py:61, binomial.py:50, cauchy.py:47,
chi_squared.py:46, discrete_weibull.py:51, exgaussian.py:59, exponential.py:55, gamma.py:72, geometric.py:42, gumbel.py:52,
halfcauchy.py:43, halfnormal.py:63, halfstudentt.py:79, hypergeometric.py:51, inversegamma.py:70, kumaraswamy.py:47,
laplace.py:47, logistic.py:47, logitnormal.py:62, loglogistic.py:51, lognormal.py:55, moyal.py:54, negativebinomial.py:79,
normal.py:68, pareto.py:46, poisson.py:47, rice.py:62, skewnormal.py:72, studentt.py:74, triangular.py:55, wald.py:63,
weibull.py:52, zi_binomial.py:51, zi_negativebinomial.py:81, zi_poisson.py:51 -/
noncomputable def initSupport (kw : Kw) : Family → EReal × EReal
  | .asymmetricLaplace | .simple .cauchy | .simple .exGaussian | .simple .gumbel | .simple .laplace | .simple .logistic
  | .simple .moyal | .normal | .skewNormal | .studentT | .simple .triangular => (⊥, ⊤)
  | .bernoulli | .beta | .kumaraswamy | .logitNormal => (0, 1)
  | .betaScaled => (((kw "lower").getD 0 : ℝ), ((kw "upper").getD 1 : ℝ))
  | .simple .geometric => (1, ⊤)
  | _ => (0, ⊤)

/-- the support assigned by `_parametrization` before a possible `_update`: discrete_uniform.py:52-56, uniform.py:51-55,
truncatednormal.py:70-74, vonmises.py:57, skew_studentt.py:85 -/
noncomputable def paramSupport (kw : Kw) (old : EReal × EReal) : Family → EReal × EReal
  | .simple .discreteUniform | .simple .uniform | .simple .truncatedNormal =>
    (((kw "lower").map fun x : ℝ => (x : EReal)).getD ⊥, ((kw "upper").map fun x : ℝ => (x : EReal)).getD ⊤)
  | .simple .vonMises => ((-Real.pi : ℝ), (Real.pi : ℝ))
  | .skewStudentT => (⊥, ⊤)
  | _ => old

/-- the support assigned by `_update`; `raw`: its arguments by name, `o`: the object with its new attributes.
betabinomial.py:74, betascaled.py:79, binomial.py:67, discrete_uniform.py:68, hypergeometric.py:68, pareto.py:61,
triangular.py:73, truncatednormal.py:87, uniform.py:67, zi_binomial.py:69-72 -/
noncomputable def updateSupport (raw : String → ℝ) (o : Obj) (old : EReal × EReal) : Family → EReal × EReal
  | .simple .betaBinomial | .simple .binomial => (0, (val o "n" : ℝ))
  | .betaScaled | .simple .discreteUniform | .simple .triangular | .simple .truncatedNormal | .simple .uniform =>
    ((val o "lower" : ℝ), (val o "upper" : ℝ))
  | .simple .hyperGeometric => ((max 0 (raw "n" - raw "N" + raw "k") : ℝ), (min (raw "k") (raw "n") : ℝ))
  | .simple .pareto => ((val o "m" : ℝ), ⊤)
  | .simple .ziBinomial => if val o "psi" = 0 then (0, 0) else (0, (val o "n" : ℝ))
  | _ => old

/-- whether `_parametrization` calls `_update`, for the families whose `_update` changes the support -/
noncomputable def updates (kw : Kw) : Family → Bool
  | .simple s => allNotNone ((simpleFam s).args.map kw)
  | .betaScaled => allNotNone [kw "alpha", kw "beta"]
  | _ => false

/-- an interval for a parameter, from the machine epsilon on -/
noncomputable def pos : EReal × Option EReal := ((eps : ℝ), some ⊤)
noncomputable def free : EReal × Option EReal := (⊥, some ⊤)
noncomputable def unit : EReal × Option EReal := ((eps : ℝ), some ((1 - eps : ℝ) : EReal))

/-- `params_support`, assigned by `_parametrization`; `N` is the attribute of HyperGeometric at that time.
The lines `self.params_support = …` of all families. -/
noncomputable def boxOf (N : Option ℝ) (names : List String) : Family → List (EReal × Option EReal)
  | .beta =>
    if names = ["mu", "sigma"] then [unit, unit]
    else if names = ["mu", "nu"] then [unit, pos]
    else [pos, pos]
  | .asymmetricLaplace => if names = ["q", "mu", "b"] then [unit, free, pos] else [pos, free, pos]
  | .betaScaled => [pos, pos, free, free]
  | .simple .cauchy | .simple .gumbel | .simple .laplace | .simple .logistic | .simple .logNormal | .logitNormal
  | .simple .moyal | .normal => [free, pos]
  | .simple .chiSquared | .exponential | .simple .halfCauchy | .halfNormal | .simple .poisson => [pos]
  | .simple .exGaussian => [free, pos, ((1e-4 : ℝ), some ⊤)]
  | .gamma | .halfStudentT | .inverseGamma | .kumaraswamy | .simple .logLogistic | .simple .pareto | .rice | .wald
  | .simple .weibull | .negativeBinomial => [pos, pos]
  | .skewNormal => [free, pos, free]
  | .skewStudentT => [free, pos, pos, pos]
  | .studentT => [pos, free, pos]
  | .simple .triangular => [free, free, free]
  | .simple .truncatedNormal => [free, pos, free, free]
  | .simple .uniform | .simple .discreteUniform => [free, free]
  | .simple .vonMises => [((-Real.pi : ℝ), some (Real.pi : ℝ)), pos]
  | .bernoulli | .simple .geometric => [((eps : ℝ), some 1)]
  | .simple .betaBinomial => [pos, pos, pos]
  | .simple .binomial => [pos, unit]
  | .simple .discreteWeibull => [unit, pos]
  | .simple .hyperGeometric =>
    [pos, ((eps : ℝ), N.map fun x : ℝ => (x : EReal)), ((eps : ℝ), N.map fun x : ℝ => (x : EReal))]
  | .simple .ziBinomial => [unit, pos, unit]
  | .ziNegativeBinomial => [unit, pos, pos]
  | .simple .ziPoisson => [unit, pos]

/-- `dist._parametrization(**kw)` -/
noncomputable def sParam (f : Family) (kw : Kw) (s : SObj) : Except Err SObj := do
  let o ← parametrize f kw s.obj
  let sup := paramSupport kw s.support f
  return ⟨o, if updates kw f then updateSupport (fun k => (kw k).getD 0) o sup f else sup, boxOf (kw "N") o.names f⟩

/-- `dist._update(*vals)`; only HyperGeometric (`_update(self, N, k, n)`) uses arguments instead of attributes -/
noncomputable def sUpdate (f : Family) (vals : List ℝ) (s : SObj) : Except Err SObj := do
  let o ← update f vals s.obj
  return ⟨o, updateSupport (fun k => ((["N", "k", "n"].zip vals).lookup k).getD 0) o s.support f, s.box⟩

/-- `Family(**kw)` -/
noncomputable def sConstruct (f : Family) (kw : Kw) : Except Err SObj := do
  let o ← construct f kw
  let sup := paramSupport kw (initSupport kw f) f
  return ⟨o, if updates kw f then updateSupport (fun k => (kw k).getD 0) o sup f else sup, boxOf (kw "N") o.names f⟩

/-! ## `info` -/

/-- what is shown of an end of a support -/
inductive Shown
  | inf | negInf
  | num (x : ℝ)

/-- distributions.py:1194-1201; `isFloat`: the value is a float and not an int -/
noncomputable def formatValue (isFloat : Bool) (v : EReal) : Shown :=
  if v = ⊤ then .inf
  else if v = ⊥ then .negInf
  else if isFloat ∧ 0 < |v.toReal| ∧ |v.toReal| < 1e-10 then .num 0
  else .num v.toReal

end Verif.Support
