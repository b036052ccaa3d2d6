import Verif.Basics
import Mathlib.Algebra.Order.Floor.Ring
import Mathlib.Analysis.SpecialFunctions.Log.Basic

/-!
# Construction and (re)parametrisation of the univariate families

One object is an `Obj`; every family has `parametrize` (`_parametrization`) and `update`
(`_update`).  Keyword arguments are a map from names to `Option ℝ`; `none` is Python's `None`.

Conventions / simplifications
* `none` inside `params` also stands for the `nan` produced by `np.float64(None)` (only
  ZeroInflatedNegativeBinomial and Kumaraswamy can do that).
* `params = none` means that the attribute `params` does not exist yet.
* `support`, `params_support` and the private `_q`, `_n` are not recorded.
* When a Python-level division by zero or a complex number appears the call is an error and the
  half-updated object is not described.
* Categorical (vector parameter) is not modelled here.
-/

namespace Verif.Param

open Verif

/-- keyword arguments; `none` = `None` or not given -/
abbrev Kw := String → Option ℝ

structure Obj where
  attr : String → Option ℝ
  names : List String
  params : Option (List (Option ℝ))
  frozen : Bool

/-- The object before `_parametrization` is first called.
distributions/distributions.py:26-28 (`Distribution.__init__`: `is_frozen = False`). -/
def blank : Obj := ⟨fun _ => none, [], none, false⟩

def Obj.set (o : Obj) (k : String) (v : Option ℝ) : Obj :=
  { o with attr := Function.update o.attr k v }

@[simp] theorem Obj.set_names (o : Obj) (k v) : (o.set k v).names = o.names := rfl
@[simp] theorem Obj.set_params (o : Obj) (k v) : (o.set k v).params = o.params := rfl
@[simp] theorem Obj.set_frozen (o : Obj) (k v) : (o.set k v).frozen = o.frozen := rfl

/-- internal/distribution_helper.py:24-28 -/
def allNotNone (l : List (Option ℝ)) : Bool := l.all Option.isSome
/-- internal/distribution_helper.py:31-35 -/
def anyNotNone (l : List (Option ℝ)) : Bool := l.any Option.isSome

/-- internal/distribution_helper.py:14-16 -/
noncomputable def fromPrecision (p : ℝ) : Except Err ℝ := do
  let r ← pySqrt p
  pyDiv 1 r

/-- internal/distribution_helper.py:19-21 -/
noncomputable def toPrecision (s : ℝ) : ℝ := 1 / (eps + s ^ 2)

/-- `np.int64(x)`: truncation towards zero. -/
noncomputable def int64 (x : ℝ) : ℝ := if 0 ≤ x then (⌊x⌋ : ℝ) else (⌈x⌉ : ℝ)

/-! ## Families whose `_parametrization` only stores the arguments -/

/-- The constructor arguments, whether `params` is assigned before the completeness check, and the
conversion applied to each argument by `_update`. -/
structure SimpleFam where
  args : List String
  preset : Bool
  conv : String → ℝ → ℝ

inductive Simple
  | betaBinomial | binomial | cauchy | chiSquared | discreteUniform | discreteWeibull | exGaussian
  | geometric | gumbel | halfCauchy | hyperGeometric | laplace | logistic | logLogistic | logNormal
  | moyal | pareto | poisson | triangular | truncatedNormal | uniform | vonMises | weibull
  | ziBinomial | ziPoisson
  deriving DecidableEq

/-- Table of the "plain" families:
betabinomial.py:59-75, binomial.py:53-68, cauchy.py:50-63, chi_squared.py:49-60,
discrete_uniform.py:46-70, discrete_weibull.py:54-67, exgaussian.py:62-78, geometric.py:45-55,
gumbel.py:55-68, halfcauchy.py:46-57, hypergeometric.py:54-69, laplace.py:50-63, logistic.py:50-63,
loglogistic.py:54-67, lognormal.py:58-71, moyal.py:57-70, pareto.py:49-63, poisson.py:50-61,
triangular.py:58-74, truncatednormal.py:57-88, uniform.py:46-69, vonmises.py:52-65,
weibull.py:55-68, zi_binomial.py:54-73, zi_poisson.py:54-67 (all in preliz/distributions).
Geometric's `param_names` is the string "p", whose only character is the name "p". -/
noncomputable def simpleFam : Simple → SimpleFam
  | .betaBinomial => ⟨["alpha", "beta", "n"], true, fun k => if k = "n" then int64 else id⟩
  | .binomial => ⟨["n", "p"], true, fun k => if k = "n" then int64 else id⟩
  | .cauchy => ⟨["alpha", "beta"], true, fun _ => id⟩
  | .chiSquared => ⟨["nu"], true, fun _ => id⟩
  | .discreteUniform => ⟨["lower", "upper"], true,
      fun k => if k = "lower" then (fun x => (⌊x⌋ : ℝ)) else (fun x => (⌈x⌉ : ℝ))⟩
  | .discreteWeibull => ⟨["q", "beta"], true, fun _ => id⟩
  | .exGaussian => ⟨["mu", "sigma", "nu"], true, fun _ => id⟩
  | .geometric => ⟨["p"], false, fun _ => id⟩
  | .gumbel => ⟨["mu", "beta"], true, fun _ => id⟩
  | .halfCauchy => ⟨["beta"], true, fun _ => id⟩
  | .hyperGeometric => ⟨["N", "k", "n"], false, fun _ => int64⟩
  | .laplace => ⟨["mu", "b"], true, fun _ => id⟩
  | .logistic => ⟨["mu", "s"], true, fun _ => id⟩
  | .logLogistic => ⟨["alpha", "beta"], true, fun _ => id⟩
  | .logNormal => ⟨["mu", "sigma"], true, fun _ => id⟩
  | .moyal => ⟨["mu", "sigma"], true, fun _ => id⟩
  | .pareto => ⟨["alpha", "m"], true, fun _ => id⟩
  | .poisson => ⟨["mu"], true, fun _ => id⟩
  | .triangular => ⟨["lower", "c", "upper"], true, fun _ => id⟩
  | .truncatedNormal => ⟨["mu", "sigma", "lower", "upper"], true, fun _ => id⟩
  | .uniform => ⟨["lower", "upper"], true, fun _ => id⟩
  | .vonMises => ⟨["mu", "kappa"], false, fun _ => id⟩
  | .weibull => ⟨["alpha", "beta"], false, fun _ => id⟩
  | .ziBinomial => ⟨["psi", "n", "p"], true, fun k => if k = "n" then int64 else id⟩
  | .ziPoisson => ⟨["psi", "mu"], true, fun _ => id⟩

/-- store a list of attributes -/
def Obj.setAll (o : Obj) (kvs : List (String × Option ℝ)) : Obj :=
  kvs.foldl (fun o kv => o.set kv.1 kv.2) o

/-- `_update` of the plain families (see `simpleFam` for the files). -/
noncomputable def simpleUpdate (t : SimpleFam) (vals : List ℝ) (o : Obj) : Obj :=
  let cs := List.zipWith (fun k v => some (t.conv k v)) t.args vals
  { (o.setAll (t.args.zip cs)) with params := some cs, frozen := true }

/-- `_parametrization` of the plain families (see `simpleFam` for the files). -/
noncomputable def simpleParam (t : SimpleFam) (kw : Kw) (o : Obj) : Obj :=
  let o := o.setAll (t.args.map fun k => (k, kw k))
  let o := { o with names := t.args }
  let o := if t.preset then { o with params := some (t.args.map kw) } else o
  if allNotNone (t.args.map kw) then
    simpleUpdate t (t.args.map fun k => (kw k).getD 0) o   -- every `kw k` is `some` here
  else o

/-! ## Families with alternative parametrisations or peculiar code -/

/-- beta.py:110-114 (also betascaled.py:82-86) -/
noncomputable def betaFromMuSigma (mu sigma : ℝ) : Except Err (ℝ × ℝ) := do
  let r ← pyDiv (mu * (1 - mu)) (sigma ^ 2)
  let nu := r - 1
  return (mu * nu, (1 - mu) * nu)

/-- beta.py:116-119 -/
noncomputable def betaFromMuNu (mu nu : ℝ) : ℝ × ℝ := (mu * nu, (1 - mu) * nu)

/-- beta.py:121-125 -/
noncomputable def betaToMuSigma (alpha beta : ℝ) : ℝ × ℝ :=
  let s := alpha + beta
  (alpha / s, Real.sqrt (alpha * beta) / s / Real.sqrt (s + 1))

/-- beta.py:127-140 -/
noncomputable def betaUpdate (alpha beta : ℝ) (o : Obj) : Obj :=
  let ms := betaToMuSigma alpha beta
  let mu := ms.1
  let sigma := ms.2
  let nu := mu * (1 - mu) / sigma ^ 2 - 1
  let o := o.setAll [("alpha", some alpha), ("beta", some beta), ("mu", some mu),
    ("sigma", some sigma), ("nu", some nu)]
  let o :=
    if o.names[0]? = some "alpha" then { o with params := some [some alpha, some beta] }
    else if o.names[1]? = some "sigma" then { o with params := some [some mu, some sigma] }
    else if o.names[1]? = some "nu" then { o with params := some [some mu, some nu] }
    else o
  { o with frozen := true }

/-- beta.py:80-108 -/
noncomputable def betaParam (kw : Kw) (o : Obj) : Except Err Obj := do
  let mu := kw "mu"
  let sigma := kw "sigma"
  let nu := kw "nu"
  if (anyNotNone [kw "alpha", kw "beta"] && anyNotNone [mu, sigma, nu])
      || allNotNone [sigma, nu] then
    .error .valueError
  else
    let o := { o with names := ["alpha", "beta"] }
    let (o, ab) ←
      if anyNotNone [mu, sigma] then
        let o := { (o.setAll [("mu", mu), ("sigma", sigma)]) with names := ["mu", "sigma"] }
        match mu, sigma with
        | some m, some s => do
          let (a, b) ← betaFromMuSigma m s
          pure (o, (some a, some b))
        | _, _ => pure (o, (kw "alpha", kw "beta"))
      else pure (o, (kw "alpha", kw "beta"))
    let (o, ab) :=
      if anyNotNone [mu, nu] && sigma.isNone then
        let o := { (o.setAll [("mu", mu), ("nu", nu)]) with names := ["mu", "nu"] }
        match mu, nu with
        | some m, some n => let (a, b) := betaFromMuNu m n; (o, (some a, some b))
        | _, _ => (o, ab)
      else (o, ab)
    let o := o.setAll [("alpha", ab.1), ("beta", ab.2)]
    match ab with
    | (some a, some b) => .ok (betaUpdate a b o)
    | _ => .ok o

/-- gamma.py:108-111 -/
noncomputable def gammaFromMuSigma (mu sigma : ℝ) : Except Err (ℝ × ℝ) := do
  let a ← pyDiv (mu ^ 2) (sigma ^ 2)
  let b ← pyDiv mu (sigma ^ 2)
  return (a, b)

/-- gamma.py:113-116 -/
noncomputable def gammaToMuSigma (alpha beta : ℝ) : ℝ × ℝ := (alpha / beta, Real.sqrt alpha / beta)

/-- inversegamma.py:252-255.  `_parametrization` calls the function of the same name in
`pytensor_distributions` (external), assumed to be the same formula; `_fit_moments` uses this one. -/
noncomputable def invGammaFromMuSigma (mu sigma : ℝ) : Except Err (ℝ × ℝ) := do
  let a ← pyDiv (mu ^ 2) (sigma ^ 2)
  let b ← pyDiv (mu ^ 3) (sigma ^ 2)
  return (a + 2, b + mu)

/-- inversegamma.py:258-263; `none` is `nan` -/
noncomputable def invGammaToMu (alpha beta : ℝ) : Option ℝ :=
  if alpha > 1 then some (beta / (alpha - 1)) else none

/-- inversegamma.py:266-271; `none` is `nan` -/
noncomputable def invGammaToSigma (alpha beta : ℝ) : Option ℝ :=
  if alpha > 2 then some (beta / ((alpha - 1) * Real.sqrt (alpha - 2))) else none

/-- gamma.py:96-106 -/
noncomputable def gammaUpdate (alpha beta : ℝ) (o : Obj) : Obj :=
  let ms := gammaToMuSigma alpha beta
  let o := o.setAll [("alpha", some alpha), ("beta", some beta), ("mu", some ms.1),
    ("sigma", some ms.2)]
  let o :=
    if o.names[0]? = some "alpha" then { o with params := some [some alpha, some beta] }
    else if o.names[1]? = some "sigma" then { o with params := some [some ms.1, some ms.2] }
    else o
  { o with frozen := true }

/-- inversegamma.py:94-105 -/
noncomputable def invGammaUpdate (alpha beta : ℝ) (o : Obj) : Obj :=
  let mu := invGammaToMu alpha beta
  let sigma := invGammaToSigma alpha beta
  let o := o.setAll [("alpha", some alpha), ("beta", some beta), ("mu", mu), ("sigma", sigma)]
  let o :=
    if o.names[0]? = some "alpha" then { o with params := some [some alpha, some beta] }
    else if o.names[1]? = some "sigma" then { o with params := some [mu, sigma] }
    else o
  { o with frozen := true }

/-- The common shape of gamma.py:75-94 and inversegamma.py:73-92, parametrised by the conversion and
the update method. -/
noncomputable def gammaLikeParam (conv : ℝ → ℝ → Except Err (ℝ × ℝ)) (upd : ℝ → ℝ → Obj → Obj)
    (kw : Kw) (o : Obj) : Except Err Obj := do
  let mu := kw "mu"
  let sigma := kw "sigma"
  if anyNotNone [kw "alpha", kw "beta"] && anyNotNone [mu, sigma] then .error .valueError
  else
    let o := { o with names := ["alpha", "beta"] }
    let (o, ab) ←
      if anyNotNone [mu, sigma] then
        let o := { (o.setAll [("mu", mu), ("sigma", sigma)]) with names := ["mu", "sigma"] }
        match mu, sigma with
        | some m, some s => do
          let (a, b) ← conv m s
          pure (o, (some a, some b))
        | _, _ => pure (o, (kw "alpha", kw "beta"))
      else pure (o, (kw "alpha", kw "beta"))
    let o := o.setAll [("alpha", ab.1), ("beta", ab.2)]
    match ab with
    | (some a, some b) => .ok (upd a b o)
    | _ => .ok o

/-- normal.py:91-101, logitnormal.py:85-95 -/
noncomputable def normalUpdate (mu sigma : ℝ) (o : Obj) : Obj :=
  let tau := toPrecision sigma
  let o := o.setAll [("mu", some mu), ("sigma", some sigma), ("tau", some tau)]
  let o :=
    if o.names[1]? = some "sigma" then { o with params := some [some mu, some sigma] }
    else if o.names[1]? = some "tau" then { o with params := some [some mu, some tau] }
    else o
  { o with frozen := true }

/-- normal.py:71-89, logitnormal.py:65-83 -/
noncomputable def normalParam (kw : Kw) (o : Obj) : Except Err Obj := do
  if allNotNone [kw "sigma", kw "tau"] then .error .valueError
  else
    let (o, names, sigma) ←
      match kw "tau" with
      | some t => do
        let s ← fromPrecision t
        pure (o.set "tau" (some t), ["mu", "tau"], some s)
      | none => pure (o, ["mu", "sigma"], kw "sigma")
    let o := { (o.setAll [("mu", kw "mu"), ("sigma", sigma)]) with names := names }
    match kw "mu", sigma with
    | some m, some s => .ok (normalUpdate m s o)
    | _, _ => .ok o

/-- halfnormal.py:82-91 -/
noncomputable def halfNormalUpdate (sigma : ℝ) (o : Obj) : Obj :=
  let tau := toPrecision sigma
  let o := o.setAll [("sigma", some sigma), ("tau", some tau)]
  let o :=
    if o.names[0]? = some "sigma" then { o with params := some [some sigma] }
    else if o.names[0]? = some "tau" then { o with params := some [some tau] }
    else o
  { o with frozen := true }

/-- halfnormal.py:66-80 -/
noncomputable def halfNormalParam (kw : Kw) (o : Obj) : Except Err Obj := do
  if allNotNone [kw "sigma", kw "tau"] then .error .valueError
  else
    let (names, sigma) ←
      match kw "tau" with
      | some t => do
        let s ← fromPrecision t
        pure (["tau"], some s)
      | none => pure (["sigma"], kw "sigma")
    let o := { (o.setAll [("sigma", sigma), ("tau", kw "tau")]) with names := names }
    match sigma with
    | some s => .ok (halfNormalUpdate s o)
    | none => .ok o

/-- halfstudentt.py:101-111 -/
noncomputable def halfStudentTUpdate (nu sigma : ℝ) (o : Obj) : Obj :=
  let lam := toPrecision sigma
  let o := o.setAll [("nu", some nu), ("sigma", some sigma), ("lam", some lam)]
  let o :=
    if o.names[1]? = some "sigma" then { o with params := some [some nu, some sigma] }
    else if o.names[1]? = some "lam" then { o with params := some [some nu, some lam] }
    else o
  { o with frozen := true }

/-- halfstudentt.py:82-99 -/
noncomputable def halfStudentTParam (kw : Kw) (o : Obj) : Except Err Obj := do
  if allNotNone [kw "sigma", kw "lam"] then .error .valueError
  else
    let (o, names, sigma) ←
      match kw "lam" with
      | some t => do
        let s ← fromPrecision t
        pure (o.set "lam" (some t), ["nu", "lam"], some s)
      | none => pure (o, ["nu", "sigma"], kw "sigma")
    let o := { (o.setAll [("nu", kw "nu"), ("sigma", sigma)]) with names := names }
    match kw "nu", sigma with
    | some m, some s => .ok (halfStudentTUpdate m s o)
    | _, _ => .ok o

/-- studentt.py:99-110 -/
noncomputable def studentTUpdate (nu mu sigma : ℝ) (o : Obj) : Obj :=
  let lam := toPrecision sigma
  let o := o.setAll [("nu", some nu), ("mu", some mu), ("sigma", some sigma), ("lam", some lam)]
  let o :=
    if o.names[2]? = some "sigma" then { o with params := some [some nu, some mu, some sigma] }
    else if o.names[2]? = some "lam" then { o with params := some [some nu, some mu, some lam] }
    else o
  { o with frozen := true }

/-- studentt.py:78-97 -/
noncomputable def studentTParam (kw : Kw) (o : Obj) : Except Err Obj := do
  if allNotNone [kw "sigma", kw "lam"] then .error .valueError
  else
    let (o, names, sigma) ←
      match kw "lam" with
      | some t => do
        let s ← fromPrecision t
        pure (o.set "lam" (some t), ["nu", "mu", "lam"], some s)
      | none => pure (o, ["nu", "mu", "sigma"], kw "sigma")
    let o := { (o.setAll [("nu", kw "nu"), ("mu", kw "mu"), ("sigma", sigma)]) with names := names }
    match kw "nu", kw "mu", sigma with
    | some n, some m, some s => .ok (studentTUpdate n m s o)
    | _, _, _ => .ok o

/-- skewnormal.py:96-107 -/
noncomputable def skewNormalUpdate (mu sigma alpha : ℝ) (o : Obj) : Obj :=
  let tau := toPrecision sigma
  let o := o.setAll [("mu", some mu), ("sigma", some sigma), ("alpha", some alpha),
    ("tau", some tau)]
  let o :=
    if o.names[1]? = some "sigma" then { o with params := some [some mu, some sigma, some alpha] }
    else if o.names[1]? = some "tau" then { o with params := some [some mu, some tau, some alpha] }
    else o
  { o with frozen := true }

/-- skewnormal.py:75-94 -/
noncomputable def skewNormalParam (kw : Kw) (o : Obj) : Except Err Obj := do
  if allNotNone [kw "sigma", kw "tau"] then .error .valueError
  else
    let (o, names, sigma) ←
      match kw "tau" with
      | some t => do
        let s ← fromPrecision t
        pure (o.set "tau" (some t), ["mu", "tau", "alpha"], some s)
      | none => pure (o, ["mu", "sigma", "alpha"], kw "sigma")
    let o := { (o.setAll [("mu", kw "mu"), ("sigma", sigma), ("alpha", kw "alpha")]) with
      names := names }
    match kw "mu", sigma, kw "alpha" with
    | some m, some s, some a => .ok (skewNormalUpdate m s a o)
    | _, _, _ => .ok o

/-- skew_studentt.py:95-105 -/
noncomputable def skewStudentTUpdate (mu sigma a b : ℝ) (o : Obj) : Obj :=
  let lam := toPrecision sigma
  let o := o.setAll [("mu", some mu), ("sigma", some sigma), ("lam", some lam), ("a", some a),
    ("b", some b)]
  let o :=
    if o.names[1]? = some "sigma" then { o with params := some [some mu, some sigma, some a, some b] }
    else if o.names[1]? = some "lam" then { o with params := some [some mu, some lam, some a, some b] }
    else o
  { o with frozen := true }

/-- skew_studentt.py:78-93 (`self.sigma` is stored before `lam` is converted). -/
noncomputable def skewStudentTParam (kw : Kw) (o : Obj) : Except Err Obj := do
  if allNotNone [kw "sigma", kw "lam"] then .error .valueError
  else
    let o := o.setAll [("mu", kw "mu"), ("sigma", kw "sigma"), ("a", kw "a"), ("b", kw "b")]
    let (o, names, sigma) ←
      match kw "lam" with
      | some t => do
        let s ← fromPrecision t
        pure (o.set "lam" (some t), ["mu", "lam", "a", "b"], some s)
      | none => pure (o, ["mu", "sigma", "a", "b"], kw "sigma")
    let o := { o with names := names }
    match kw "mu", sigma, kw "a", kw "b" with
    | some m, some s, some a, some b => .ok (skewStudentTUpdate m s a b o)
    | _, _, _, _ => .ok o

/-- asymmetric_laplace.py:251-253 -/
noncomputable def asymLaplaceFromQ (q : ℝ) : Except Err ℝ := do
  let r ← pyDiv q (1 - q)
  pySqrt r

/-- asymmetric_laplace.py:256-258 -/
noncomputable def asymLaplaceToQ (kappa : ℝ) : ℝ := kappa ^ 2 / (1 + kappa ^ 2)

/-- asymmetric_laplace.py:91-102 -/
noncomputable def asymLaplaceUpdate (kappa mu b : ℝ) (o : Obj) : Obj :=
  let q := asymLaplaceToQ kappa
  let o := o.setAll [("kappa", some kappa), ("mu", some mu), ("b", some b), ("q", some q)]
  let o :=
    if o.names[0]? = some "kappa" then { o with params := some [some kappa, some mu, some b] }
    else if o.names[0]? = some "q" then { o with params := some [some q, some mu, some b] }
    else o
  { o with frozen := true }

/-- asymmetric_laplace.py:72-89 -/
noncomputable def asymLaplaceParam (kw : Kw) (o : Obj) : Except Err Obj := do
  if allNotNone [kw "kappa", kw "q"] then .error .valueError
  else
    let (o, names, kappa) ←
      match kw "q" with
      | some q => do
        let k ← asymLaplaceFromQ q
        pure (o.set "q" (some q), ["q", "mu", "b"], some k)
      | none => pure (o, ["kappa", "mu", "b"], kw "kappa")
    let o := { (o.setAll [("kappa", kappa), ("mu", kw "mu"), ("b", kw "b")]) with names := names }
    match kappa, kw "mu", kw "b" with
    | some k, some m, some b => .ok (asymLaplaceUpdate k m b o)
    | _, _, _ => .ok o

/-- internal/special.py:84-89 -/
noncomputable def expit (x : ℝ) : ℝ :=
  if x ≥ 0 then 1 / (1 + Real.exp (-x)) else Real.exp x / (1 + Real.exp x)

/-- internal/special.py:72-81 restricted to finite results: `none` is `±inf` (at 0 and 1) or `nan`
(outside [0, 1]). -/
noncomputable def logit (x : ℝ) : Option ℝ :=
  if x = 0 then none
  else if x = 1 then none
  else if x < 0 ∨ x > 1 then none
  else some (Real.log (x / (1 - x)))

/-- bernoulli.py:79-89 -/
noncomputable def bernoulliUpdate (p : ℝ) (o : Obj) : Obj :=
  let l := logit p
  let o := o.setAll [("p", some p), ("logit_p", l)]
  let o :=
    if o.names[0]? = some "p" then { o with params := some [some p] }
    else if o.names[0]? = some "logit_p" then { o with params := some [l] }
    else o
  { o with frozen := true }

/-- bernoulli.py:57-71 -/
noncomputable def bernoulliParam (kw : Kw) (o : Obj) : Except Err Obj := do
  if allNotNone [kw "p", kw "logit_p"] then .error .valueError
  else
    let (names, p) :=
      match kw "logit_p" with
      | some l => (["logit_p"], some (expit l))
      | none => (["p"], kw "p")
    let o := { (o.setAll [("p", p), ("logit_p", kw "logit_p")]) with names := names }
    match p with
    | some p => .ok (bernoulliUpdate p o)
    | none => .ok o

/-- exponential.py:74-83 -/
noncomputable def exponentialUpdate (lam : ℝ) (o : Obj) : Obj :=
  let scale := 1 / lam
  let o := o.setAll [("lam", some lam), ("scale", some scale)]
  let o :=
    if o.names[0]? = some "lam" then { o with params := some [some lam] }
    else if o.names[0]? = some "scale" then { o with params := some [some scale] }
    else o
  { o with frozen := true }

/-- exponential.py:58-72 -/
noncomputable def exponentialParam (kw : Kw) (o : Obj) : Except Err Obj := do
  if allNotNone [kw "lam", kw "scale"] then .error .valueError
  else
    let (names, lam) ←
      match kw "scale" with
      | some s => do
        let l ← pyDiv 1 s
        pure (["scale"], some l)
      | none => pure (["lam"], kw "lam")
    let o := { (o.setAll [("lam", lam), ("scale", kw "scale")]) with names := names }
    match lam with
    | some l => .ok (exponentialUpdate l o)
    | none => .ok o

/-- negativebinomial.py:101-103, zi_negativebinomial.py:107-110 -/
noncomputable def nbFromNP (n p : ℝ) : Except Err (ℝ × ℝ) := do
  let r ← pyDiv 1 p
  return (n * (r - 1), n)

/-- negativebinomial.py:105-107, zi_negativebinomial.py:112-115; returns `(n, p)` -/
noncomputable def nbToNP (mu alpha : ℝ) : ℝ × ℝ := (alpha, alpha / (mu + alpha))

/-- negativebinomial.py:109-119 -/
noncomputable def nbUpdate (mu alpha : ℝ) (o : Obj) : Obj :=
  let np := nbToNP mu alpha
  let o := o.setAll [("mu", some mu), ("alpha", some alpha), ("n", some np.1), ("p", some np.2)]
  let o :=
    if o.names[0]? = some "mu" then { o with params := some [some mu, some alpha] }
    else if o.names[0]? = some "p" then { o with params := some [some np.2, some np.1] }
    else o
  { o with frozen := true }

/-- negativebinomial.py:82-99 -/
noncomputable def nbParam (kw : Kw) (o : Obj) : Except Err Obj := do
  let p := kw "p"
  let n := kw "n"
  if anyNotNone [kw "mu", kw "alpha"] && anyNotNone [p, n] then .error .valueError
  else
    let o := { o with names := ["mu", "alpha"] }
    let (o, ma) ←
      if anyNotNone [p, n] then
        let o := { (o.setAll [("p", p), ("n", n)]) with names := ["p", "n"] }
        match p, n with
        | some p, some n => do
          let (m, a) ← nbFromNP n p
          pure (o, (some m, some a))
        | _, _ => pure (o, (kw "mu", kw "alpha"))
      else pure (o, (kw "mu", kw "alpha"))
    let o := o.setAll [("mu", ma.1), ("alpha", ma.2)]
    match ma with
    | (some m, some a) => .ok (nbUpdate m a o)
    | _ => .ok o

/-- zi_negativebinomial.py:117-128.  `psi` may be `None`; `np.float64(None)` is `nan`. -/
noncomputable def zinbUpdate (psi : Option ℝ) (mu alpha : ℝ) (o : Obj) : Obj :=
  let np := nbToNP mu alpha
  let o := o.setAll [("psi", psi), ("mu", some mu), ("alpha", some alpha), ("p", some np.2),
    ("n", some np.1)]
  let o :=
    if o.names[1]? = some "mu" then { o with params := some [psi, some mu, some alpha] }
    else if o.names[1]? = some "p" then { o with params := some [psi, some np.2, some np.1] }
    else o
  { o with frozen := true }

/-- zi_negativebinomial.py:84-105 -/
noncomputable def zinbParam (kw : Kw) (o : Obj) : Except Err Obj := do
  let p := kw "p"
  let n := kw "n"
  if anyNotNone [kw "mu", kw "alpha"] && anyNotNone [p, n] then .error .valueError
  else
    let o := { (o.set "psi" (kw "psi")) with names := ["psi", "mu", "alpha"] }
    let (o, ma) ←
      if anyNotNone [p, n] then
        let o := { (o.setAll [("p", p), ("n", n)]) with names := ["psi", "p", "n"] }
        match p, n with
        | some p, some n => do
          let (m, a) ← nbFromNP n p
          pure (o, (some m, some a))
        | _, _ => pure (o, (kw "mu", kw "alpha"))
      else pure (o, (kw "mu", kw "alpha"))
    let o := { (o.setAll [("mu", ma.1), ("alpha", ma.2)]) with
      params := some [kw "psi", ma.1, ma.2] }
    match ma with
    | (some m, some a) => .ok (zinbUpdate (kw "psi") m a o)
    | _ => .ok o

/-- rice.py:86-92 -/
noncomputable def riceFromB (b sigma : ℝ) : ℝ := b * sigma
noncomputable def riceToB (nu sigma : ℝ) : ℝ := nu / sigma

/-- rice.py:94-104 -/
noncomputable def riceUpdate (nu sigma : ℝ) (o : Obj) : Obj :=
  let b := riceToB nu sigma
  let o := o.setAll [("nu", some nu), ("sigma", some sigma), ("b", some b)]
  let o :=
    if o.names[0]? = some "nu" then { o with params := some [some nu, some sigma] }
    else if o.names[0]? = some "b" then { o with params := some [some b, some sigma] }
    else o
  { o with frozen := true }

/-- rice.py:65-84 -/
noncomputable def riceParam (kw : Kw) (o : Obj) : Except Err Obj := do
  if allNotNone [kw "nu", kw "b"] then .error .valueError
  else
    let (o, names, nu) :=
      match kw "b" with
      | some b =>
        let o := o.setAll [("b", some b), ("sigma", kw "sigma")]
        match kw "sigma" with
        | some s => (o, ["b", "sigma"], some (riceFromB b s))
        | none => (o, ["b", "sigma"], kw "nu")
      | none => (o, ["nu", "sigma"], kw "nu")
    let o := { (o.setAll [("nu", nu), ("sigma", kw "sigma")]) with names := names }
    match nu, kw "sigma" with
    | some n, some s => .ok (riceUpdate n s o)
    | _, _ => .ok o

/-- wald.py:90-100 -/
noncomputable def waldFromMuPhi (mu phi : ℝ) : ℝ := mu * phi
noncomputable def waldFromLamPhi (lam phi : ℝ) : Except Err ℝ := pyDiv lam phi
noncomputable def waldToPhi (mu lam : ℝ) : ℝ := lam / mu

/-- wald.py:102-114 -/
noncomputable def waldUpdate (mu lam : ℝ) (o : Obj) : Obj :=
  let phi := waldToPhi mu lam
  let o := o.setAll [("mu", some mu), ("lam", some lam), ("phi", some phi)]
  let o :=
    if o.names = ["mu", "lam"] then { o with params := some [some mu, some lam] }
    else if o.names = ["mu", "phi"] then { o with params := some [some mu, some phi] }
    else if o.names = ["lam", "phi"] then { o with params := some [some lam, some phi] }
    else o
  { o with frozen := true }

/-- Python's `a and b` on numbers / `None`. -/
noncomputable def pyAnd (a b : Option ℝ) : Option ℝ :=
  match a with
  | none => none
  | some x => if x = 0 then some x else b

/-- wald.py:66-88 -/
noncomputable def waldParam (kw : Kw) (o : Obj) : Except Err Obj := do
  let mu := kw "mu"
  let lam := kw "lam"
  if allNotNone [mu, lam, kw "phi"] then .error .valueError
  else
    let (o, names, mu, lam) ←
      match kw "phi" with
      | some phi =>
        let o := o.set "phi" (some phi)
        if (pyAnd mu (some phi)).isSome then
          -- here `mu` is not None
          pure (o, ["mu", "phi"], mu, some (waldFromMuPhi (mu.getD 0) phi))
        else if (pyAnd lam (some phi)).isSome then do
          let m ← waldFromLamPhi (lam.getD 0) phi
          pure (o, ["lam", "phi"], some m, lam)
        else pure (o, ["mu", "lam"], mu, lam)
      | none => pure (o, ["mu", "lam"], mu, lam)
    let o := { (o.setAll [("mu", mu), ("lam", lam)]) with names := names }
    match mu, lam with
    | some m, some l => .ok (waldUpdate m l o)
    | _, _ => .ok o

/-- kumaraswamy.py:59-63; `np.float64(None)` is `nan` (here `none`) -/
noncomputable def kumaraswamyUpdate (a b : Option ℝ) (o : Obj) : Obj :=
  { (o.setAll [("a", a), ("b", b)]) with params := some [a, b], frozen := true }

/-- kumaraswamy.py:50-57: the freeze test is `(a and b) is not None`. -/
noncomputable def kumaraswamyParam (kw : Kw) (o : Obj) : Except Err Obj :=
  let a := kw "a"
  let b := kw "b"
  let o := { (o.setAll [("a", a), ("b", b)]) with params := some [a, b], names := ["a", "b"] }
  if (pyAnd a b).isSome then .ok (kumaraswamyUpdate a b o) else .ok o

/-- betascaled.py:70-80 -/
noncomputable def betaScaledUpdate (alpha beta : ℝ) (lower upper : Option ℝ) (o : Obj) : Obj :=
  let o := match lower with | some l => o.set "lower" (some l) | none => o
  let o := match upper with | some u => o.set "upper" (some u) | none => o
  let o := o.setAll [("alpha", some alpha), ("beta", some beta)]
  { o with
    params := some [some alpha, some beta, o.attr "lower", o.attr "upper"]
    frozen := true }

/-- betascaled.py:64-68 -/
noncomputable def betaScaledParam (kw : Kw) (o : Obj) : Except Err Obj :=
  let o := { o with names := ["alpha", "beta", "lower", "upper"] }
  match kw "alpha", kw "beta" with
  | some a, some b => .ok (betaScaledUpdate a b (kw "lower") (kw "upper") o)
  | _, _ => .ok o

/-! ## All families -/

inductive Family
  | simple (s : Simple)
  | asymmetricLaplace | bernoulli | beta | betaScaled | exponential | gamma | halfNormal
  | halfStudentT | inverseGamma | kumaraswamy | logitNormal | negativeBinomial | normal | rice
  | skewNormal | skewStudentT | studentT | wald | ziNegativeBinomial
  deriving DecidableEq

/-- `dist._parametrization(**kw)`; see the per-family definitions above. -/
noncomputable def parametrize : Family → Kw → Obj → Except Err Obj
  | .simple s, kw, o => .ok (simpleParam (simpleFam s) kw o)
  | .asymmetricLaplace, kw, o => asymLaplaceParam kw o
  | .bernoulli, kw, o => bernoulliParam kw o
  | .beta, kw, o => betaParam kw o
  | .betaScaled, kw, o => betaScaledParam kw o
  | .exponential, kw, o => exponentialParam kw o
  | .gamma, kw, o => gammaLikeParam gammaFromMuSigma gammaUpdate kw o
  | .halfNormal, kw, o => halfNormalParam kw o
  | .halfStudentT, kw, o => halfStudentTParam kw o
  | .inverseGamma, kw, o => gammaLikeParam invGammaFromMuSigma invGammaUpdate kw o
  | .kumaraswamy, kw, o => kumaraswamyParam kw o
  | .logitNormal, kw, o => normalParam kw o
  | .negativeBinomial, kw, o => nbParam kw o
  | .normal, kw, o => normalParam kw o
  | .rice, kw, o => riceParam kw o
  | .skewNormal, kw, o => skewNormalParam kw o
  | .skewStudentT, kw, o => skewStudentTParam kw o
  | .studentT, kw, o => studentTParam kw o
  | .wald, kw, o => waldParam kw o
  | .ziNegativeBinomial, kw, o => zinbParam kw o

/-- `dist._update(*vals)` as called by the fitting code with the canonical parameters (see the
`*Update` definitions for the files).  A wrong number of arguments is Python's `TypeError`. -/
noncomputable def update : Family → List ℝ → Obj → Except Err Obj
  | .simple s, vals, o =>
    if vals.length = (simpleFam s).args.length then .ok (simpleUpdate (simpleFam s) vals o)
    else .error .typeError
  | .asymmetricLaplace, [k, m, b], o => .ok (asymLaplaceUpdate k m b o)
  | .bernoulli, [p], o => .ok (bernoulliUpdate p o)
  | .beta, [a, b], o => .ok (betaUpdate a b o)
  | .betaScaled, [a, b, l, u], o => .ok (betaScaledUpdate a b (some l) (some u) o)
  | .exponential, [l], o => .ok (exponentialUpdate l o)
  | .gamma, [a, b], o => .ok (gammaUpdate a b o)
  | .halfNormal, [s], o => .ok (halfNormalUpdate s o)
  | .halfStudentT, [n, s], o => .ok (halfStudentTUpdate n s o)
  | .inverseGamma, [a, b], o => .ok (invGammaUpdate a b o)
  | .kumaraswamy, [a, b], o => .ok (kumaraswamyUpdate (some a) (some b) o)
  | .logitNormal, [m, s], o => .ok (normalUpdate m s o)
  | .negativeBinomial, [m, a], o => .ok (nbUpdate m a o)
  | .normal, [m, s], o => .ok (normalUpdate m s o)
  | .rice, [n, s], o => .ok (riceUpdate n s o)
  | .skewNormal, [m, s, a], o => .ok (skewNormalUpdate m s a o)
  | .skewStudentT, [m, s, a, b], o => .ok (skewStudentTUpdate m s a b o)
  | .studentT, [n, m, s], o => .ok (studentTUpdate n m s o)
  | .wald, [m, l], o => .ok (waldUpdate m l o)
  | .ziNegativeBinomial, [p, m, a], o => .ok (zinbUpdate (some p) m a o)
  | _, _, _ => .error .typeError

/-- `Family(**kw)`: `__init__` of each class.  Only BetaScaled does more than call
`_parametrization` (betascaled.py:55-62: defaults `lower=0`, `upper=1`, attributes stored). -/
noncomputable def construct : Family → Kw → Except Err Obj
  | .betaScaled, kw =>
    let lower := some ((kw "lower").getD 0)
    let upper := some ((kw "upper").getD 1)
    let o := blank.setAll [("alpha", kw "alpha"), ("beta", kw "beta"), ("lower", lower),
      ("upper", upper)]
    betaScaledParam (fun k => if k = "lower" then lower else if k = "upper" then upper else kw k) o
  | f, kw => parametrize f kw blank

/-- Keyword dictionary from `param_names` and `params`: distributions/distributions.py
(`params_dict` is `dict(zip(self.param_names, self.params))`). -/
def dictOf (names : List String) (params : List (Option ℝ)) : Kw :=
  fun k => ((names.zip params).lookup k).getD none

/-- `dist.params_dict` as keyword arguments. -/
def Obj.paramsDict (o : Obj) : Kw := dictOf o.names (o.params.getD [])

end Verif.Param
