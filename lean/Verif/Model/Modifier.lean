import Verif.Basics
import Mathlib.Probability.ConditionalProbability
import Mathlib.MeasureTheory.Measure.Lebesgue.Basic
import Mathlib.MeasureTheory.Measure.WithDensity
import Mathlib.Data.EReal.Operations

/-!
# Truncated, Censored, Hurdle, Mixture: values of pdf, cdf, ppf, moments

The base distribution's own functions are computed by an external package; here a base is a
probability law on ℝ together with functions satisfying the usual contract (`Base`).
Bounds may be infinite, so they are `EReal`; query points are real.  `nan` is `none`; a log-density
is an `Option ℝ` with `none` for `-inf`.
-/

namespace Verif.Modifier
open Verif MeasureTheory

/-- A base distribution: a law, its kind, and the functions provided by the external package with
the contract we trust (pdf is the density / mass function, ppf the generalised inverse of the cdf on
(0, 1]).  Its cdf is defined from the law, see `Base.cdf`. -/
structure Base where
  law : Measure ℝ
  prob : IsProbabilityMeasure law
  discrete : Bool
  /-- `dist.support` -/
  lo : EReal
  hi : EReal
  pdf : ℝ → ℝ
  ppf : ℝ → EReal
  pdf_nonneg : ∀ x, 0 ≤ pdf x
  in_support : ∀ᵐ (y : ℝ) ∂law, lo ≤ (y : EReal) ∧ (y : EReal) ≤ hi
  discrete_law : discrete = true → (∀ᵐ (y : ℝ) ∂law, ∃ k : ℤ, y = k) ∧ ∀ x, pdf x = law.real {x}
  continuous_law : discrete = false →
    Measurable pdf ∧ law = volume.withDensity fun x => ENNReal.ofReal (pdf x)
  ppf_inverse : ∀ q, 0 < q → q ≤ 1 → ∀ x : ℝ, ppf q ≤ (x : EReal) ↔ q ≤ law.real (Set.Iic x)

attribute [instance] Base.prob

/-- `dist.cdf(x)`, also at `±inf` -/
noncomputable def Base.cdf (b : Base) (x : EReal) : ℝ := b.law.real {y : ℝ | (y : EReal) ≤ x}

/-- log of a density: `none` is `-inf` -/
noncomputable def logOf (p : ℝ) : Option ℝ := if p = 0 then none else some (Real.log p)
/-- `np.exp` of a log-density -/
noncomputable def expOf : Option ℝ → ℝ
  | none => 0
  | some r => Real.exp r

/-- `dist.logpdf` -/
noncomputable def Base.logpdf (b : Base) (x : ℝ) : Option ℝ := logOf (b.pdf x)

/-! ## Truncated -/

/-- truncated.py:160-163 -/
noncomputable def adjustLower (discrete : Bool) (lower : EReal) : EReal :=
  if discrete then lower - 1 else lower

/-- truncated.py:141-145 -/
noncomputable def truncLogpdf (b : Base) (lower upper : EReal) (x : ℝ) : Option ℝ :=
  let low := adjustLower b.discrete lower
  let vals := (b.logpdf x).map fun v => v - Real.log (b.cdf upper - b.cdf low)
  if (x : EReal) < lower ∨ (x : EReal) > upper then none else vals

/-- truncated.py:124-125 -/
noncomputable def truncPdf (b : Base) (lower upper : EReal) (x : ℝ) : ℝ :=
  expOf (truncLogpdf b lower upper x)

/-- truncated.py:127-132 -/
noncomputable def truncCdf (b : Base) (lower upper : EReal) (x : ℝ) : ℝ :=
  let low := adjustLower b.discrete lower
  let lcdf := b.cdf low
  let vals := (b.cdf x - lcdf) / (b.cdf upper - lcdf)
  if (x : EReal) < low then 0 else if (x : EReal) > upper then 1 else vals

/-- truncated.py:134-139 -/
noncomputable def truncPpf (b : Base) (lower upper : EReal) (q : ℝ) : Option EReal :=
  let low := adjustLower b.discrete lower
  let lcdf := b.cdf low
  let vals := b.ppf (lcdf + q * (b.cdf upper - lcdf))
  if q < 0 ∨ q > 1 then none else some vals

/-- truncated.py:120-122; `us` is what `random_state.uniform(size=size)` returned -/
noncomputable def truncRvs (b : Base) (lower upper : EReal) (us : List ℝ) : List (Option EReal) :=
  us.map (truncPpf b lower upper)

/-! ## Censored -/

/-- censored.py:79-83: the bounds kept by the object are cut to the base support -/
noncomputable def censBounds (b : Base) (lower upper : EReal) : EReal × EReal :=
  (max b.lo lower, min b.hi upper)

/-- censored.py:183-194 (`lower`, `upper` after `censBounds`) -/
noncomputable def censLogpdf (b : Base) (lower upper : EReal) (x : ℝ) : Option ℝ :=
  let vals := b.logpdf x
  let vals := if (x : EReal) < lower ∨ (x : EReal) > upper then none else vals
  let vals := if (x : EReal) = lower then logOf (b.cdf lower) else vals
  if b.discrete then
    if (x : EReal) = upper then logOf (1 - b.cdf (upper - 1)) else vals
  else
    if (x : EReal) = upper then logOf (1 - b.cdf upper) else vals

/-- censored.py:172-173 -/
noncomputable def censPdf (b : Base) (lower upper : EReal) (x : ℝ) : ℝ :=
  expOf (censLogpdf b lower upper x)

/-- censored.py:175-178 -/
noncomputable def censCdf (b : Base) (lower upper : EReal) (x : ℝ) : ℝ :=
  if (x : EReal) < lower then 0 else if (x : EReal) > upper then 1 else b.cdf x

/-- `np.clip(v, lower, upper)` = `minimum(upper, maximum(v, lower))` -/
noncomputable def clip (lower upper v : EReal) : EReal := min upper (max v lower)

/-- censored.py:180-181 (q in (0, 1]; the base decides what happens elsewhere) -/
noncomputable def censPpf (b : Base) (lower upper : EReal) (q : ℝ) : EReal :=
  clip lower upper (b.ppf q)

/-- censored.py:106-107; the base median is `ppf(0.5)` by the contract -/
noncomputable def censMedian (b : Base) (lower upper : EReal) : EReal :=
  clip lower upper (b.ppf 0.5)

/-- censored.py:169-170; `xs` are the base draws -/
noncomputable def censRvs (lower upper : EReal) (xs : List ℝ) : List EReal :=
  xs.map fun (x : ℝ) => clip lower upper (x : EReal)

/-- special.py:100-107 for a possibly infinite first argument -/
noncomputable def xprody (x : EReal) (y : ℝ) : ℝ := if x = ⊤ ∨ x = ⊥ then 0 else x.toReal * y

/-- censored.py:87-92 (the same lines in `var`, `skewness`, `kurtosis`) -/
noncomputable def censPLow (b : Base) (lower : EReal) : ℝ :=
  if b.discrete then b.cdf (lower - 1) else b.cdf lower
noncomputable def censPUp (b : Base) (upper : EReal) : ℝ := 1 - b.cdf upper
noncomputable def censPInt (b : Base) (lower upper : EReal) : ℝ :=
  1 - (censPLow b lower + censPUp b upper)

/-- The moments that `Truncated(dist, lower, upper)` returns.  The code computes them numerically on
a grid (truncated.py:82-118); here they are parameters. -/
structure TruncMoments where
  mean : ℝ
  var : ℝ
  skewness : ℝ
  kurtosis : ℝ

/-- censored.py:86-94 -/
noncomputable def censMean (b : Base) (lower upper : EReal) (t : TruncMoments) : ℝ :=
  xprody lower (censPLow b lower) + t.mean * censPInt b lower upper +
    xprody upper (censPUp b upper)

/-- `(bound - mean) ** k` where the bound may be infinite (then it is infinite) -/
noncomputable def powDiff (bound : EReal) (mean : ℝ) (k : ℕ) : EReal :=
  if bound = ⊤ ∨ bound = ⊥ then ⊤ else (((bound.toReal - mean) ^ k : ℝ) : EReal)

/-- censored.py:109-124 -/
noncomputable def censVar (b : Base) (lower upper : EReal) (t : TruncMoments) : ℝ :=
  let mean := censMean b lower upper t
  let varTrunc := t.var + (t.mean - mean) ^ 2
  xprody (powDiff lower mean 2) (censPLow b lower) + varTrunc * censPInt b lower upper +
    xprody (powDiff upper mean 2) (censPUp b upper)

/-- `((bound - mean) / std) ** k` -/
noncomputable def powStd (bound : EReal) (mean std : ℝ) (k : ℕ) : EReal :=
  if bound = ⊤ ∨ bound = ⊥ then ⊤ else ((((bound.toReal - mean) / std) ^ k : ℝ) : EReal)

/-- censored.py:129-147 -/
noncomputable def censSkewness (b : Base) (lower upper : EReal) (t : TruncMoments) : ℝ :=
  let mean := censMean b lower upper t
  let std := Real.sqrt (censVar b lower upper t)
  let stdTrunc := Real.sqrt t.var
  let skewTrunc := t.skewness + ((t.mean - mean) / stdTrunc) ^ 3
  xprody (powStd lower mean std 3) (censPLow b lower) + skewTrunc * censPInt b lower upper +
    xprody (powStd upper mean std 3) (censPUp b upper)

/-- censored.py:149-167 -/
noncomputable def censKurtosis (b : Base) (lower upper : EReal) (t : TruncMoments) : ℝ :=
  let mean := censMean b lower upper t
  let std := Real.sqrt (censVar b lower upper t)
  let stdTrunc := Real.sqrt t.var
  let kurtTrunc := t.kurtosis + 3 + ((t.mean - mean) / stdTrunc) ^ 4
  xprody (powStd lower mean std 4) (censPLow b lower) + kurtTrunc * censPInt b lower upper +
    xprody (powStd upper mean std 4) (censPUp b upper) - 3

/-! ## Hurdle

The test `self.dist == "discrete"` in `pdf`, `cdf`, `logpdf` compares a distribution object with a
string and is always false, so the `else` branches (with `eps`) are the ones that run. -/

/-- hurdle.py:113-121 -/
noncomputable def hurdlePdf (b : Base) (psi : ℝ) (x : ℝ) : ℝ :=
  if x = 0 then 1 - psi else psi * b.pdf x / (1 - b.cdf (eps : ℝ))

/-- hurdle.py:123-133 -/
noncomputable def hurdleCdf (b : Base) (psi : ℝ) (x : ℝ) : ℝ :=
  if x ≤ 0 then 1 - psi else 1 - psi * (1 - b.cdf x) / (1 - b.cdf (eps : ℝ))

/-- hurdle.py:135-147 -/
noncomputable def hurdlePpf (b : Base) (psi : ℝ) (q : ℝ) : Option EReal :=
  let lower : ℝ := if b.discrete then 0 else eps
  let lcdf := b.cdf lower
  let vals : EReal :=
    if q ≥ 1 - psi then b.ppf (lcdf + (q - (1 - psi)) * (1 - lcdf) / psi) else 0
  if q < 0 ∨ q > 1 then none else some vals

/-- hurdle.py:149-162 -/
noncomputable def hurdleLogpdf (b : Base) (psi : ℝ) (x : ℝ) : Option ℝ :=
  if x = 0 then logOf (1 - psi)
  else (logOf psi).bind fun lp =>
    (b.logpdf x).map fun v => lp + v - Real.log (1 - b.cdf (eps : ℝ))

/-- hurdle.py:109-111 -/
noncomputable def hurdleRvs (b : Base) (psi : ℝ) (us : List ℝ) : List (Option EReal) :=
  us.map (hurdlePpf b psi)

/-! ## Mixture -/

/-- mixture.py:73-75 (all weights and component parameters given) -/
noncomputable def mixWeights (ws : List ℝ) : List ℝ := ws.map (· / ws.sum)

/-- mixture.py:77-80 -/
noncomputable def mixPdf (bs : List Base) (ws : List ℝ) (x : ℝ) : ℝ :=
  (List.zipWith (fun b w => b.pdf x * w) bs (mixWeights ws)).sum

/-- mixture.py:82-85 -/
noncomputable def mixCdf (bs : List Base) (ws : List ℝ) (x : ℝ) : ℝ :=
  (List.zipWith (fun b w => b.cdf x * w) bs (mixWeights ws)).sum

/-- mixture.py:90-94; scipy's `logsumexp` is the log of the sum of the exponentials -/
noncomputable def mixLogpdf (bs : List Base) (ws : List ℝ) (x : ℝ) : Option ℝ :=
  let terms := List.zipWith
    (fun (b : Base) w => (logOf w).bind fun lw => (b.logpdf x).map fun v => lw + v)
    bs (mixWeights ws)
  logOf ((terms.map expOf).sum)

/-- mixture.py:107-110; `ms` are the component means -/
noncomputable def mixMean (ms : List ℝ) (ws : List ℝ) : ℝ :=
  (List.zipWith (fun m w => m * w) ms (mixWeights ws)).sum

/-- mixture.py:115-125; components given as (mean, var) -/
noncomputable def mixVar (mvs : List (ℝ × ℝ)) (ws : List ℝ) : ℝ :=
  (List.zipWith (fun mv w => w * (mv.2 + mv.1 ^ 2)) mvs (mixWeights ws)).sum
    - mixMean (mvs.map Prod.fst) ws ^ 2

/-- mixture.py:146-150: weights after `_fit_moments` on `n` components -/
noncomputable def mixFitWeights (n : ℕ) : List ℝ := List.replicate n (1 / (n : ℝ))

/-- mixture.py:136-144.  `idx` is what `random_state.choice` returned; component `i` supplies its
draws through `draw i n` (a list of `n` values).  `np.concatenate([])` raises `ValueError`. -/
def mixRvs {α : Type} (nComp : ℕ) (idx : List ℕ) (draw : ℕ → ℕ → List α) : Except Err (List α) :=
  let parts := (List.range nComp).filterMap fun i =>
    let n := idx.count i
    if n ≠ 0 then some (draw i n) else none
  if parts.isEmpty then .error .valueError else .ok parts.flatten

end Verif.Modifier
