import Verif.Model.Interval
import Verif.Model.Param

/-!
# Optimisation bookkeeping: fixed parameters, selecting results, ranking, validation

preliz/internal/optimization.py, preliz/unidimensional/{maxent,quartile,mle,combine,combine_roulette}.py.
The numerical optimisers are external; what they return is an input here.
-/

namespace Verif.Optim
open Verif Verif.Param Verif.Modifier

/-! ## Splitting and reassembling parameters -/

/-- the loop body at optimization.py:520-525 -/
def splitStep {V : Type} (attr : String → Option V) (acc : List ℕ × List V) (ni : String × ℕ) :
    List ℕ × List V :=
  match attr ni.1 with
  | none => (acc.1 ++ [ni.2], acc.2)
  | some v => (acc.1, acc.2 ++ [v])

/-- optimization.py:517-526.  (TruncatedNormal stores missing bounds as infinities, which then count
as fixed; that case is in Model/TruncNormal.lean.) -/
def getFixedParams (o : Obj) : List ℕ × List ℝ :=
  o.names.zipIdx.foldl (splitStep o.attr) ([], [])

/-- the loop of optimization.py:77-90, from position `idx` on -/
def getParamsFrom {V : Type} (names : List String) (idx : ℕ) (noneIdx : List ℕ) (params fixed : List V) :
    Except Err (List (String × V)) :=
  match names with
  | [] => .ok []
  | name :: rest =>
    if noneIdx.contains idx then
      match params with
      | [] => .error .indexError
      | p :: ps => (getParamsFrom rest (idx + 1) noneIdx ps fixed).map ((name, p) :: ·)
    else
      match fixed with
      | [] => .error .indexError
      | v :: vs => (getParamsFrom rest (idx + 1) noneIdx params vs).map ((name, v) :: ·)

/-- optimization.py:77-90.  The loop runs over `range(len(dist.params))`; `params` and `param_names`
have the same length at every call. -/
def getParams {V : Type} (names : List String) (params : List V) (noneIdx : List ℕ) (fixed : List V) :
    Except Err (List (String × V)) := getParamsFrom names 0 noneIdx params fixed

/-- keyword arguments of a call `f(**dict)` -/
def kwCall (kvs : List (String × ℝ)) : Kw := fun k => kvs.lookup k

/-- `dist._parametrization(**get_params(dist, x, none_idx, fixed))` -/
noncomputable def applyCandidate (f : Family) (names : List String) (noneIdx : List ℕ)
    (fixed : List ℝ) (x : List ℝ) (o : Obj) : Except Err Obj := do
  let kvs ← getParams names x noneIdx fixed
  parametrize f (kwCall kvs) o

/-! ## maxent -/

/-- one optimiser result: the point and the value of the objective (minus entropy, may be NaN) -/
structure Opt where
  x : List ℝ
  value : Option EReal

/-- optimization.py:14-24 for a distribution `b`; `stat` is the distance of the fixed statistic from
its target -/
noncomputable def probBound (b : Base) (lower upper mass : ℝ) (stat : Option ℝ) : ℝ :=
  let lower := if b.discrete then lower - 1 else lower
  let loss := (b.cdf upper - b.cdf lower) - mass
  match stat with
  | none => loss
  | some d => loss - |d|

/-- optimization.py:49-56: results of the runs up to the first that raises -/
def collect : List (Except Err Opt) → List Opt
  | [] => []
  | .error _ :: _ => []
  | .ok r :: rest => r :: collect rest

/-- optimization.py:59-67; `err x` is `abs(prob_bound(x))`, `none` for NaN -/
noncomputable def pickBest (err : List ℝ → Option ℝ) :
    Option Opt → EReal → List Opt → Option Opt
  | best, _, [] => best
  | best, ent, r :: rest =>
    match err r.x, r.value with
    | some e, some v =>
      if e < 1 / 10000 then
        if -v > ent then pickBest err (some r) (-v) rest else pickBest err best ent rest
      else pickBest err best ent rest
    | _, _ => pickBest err best ent rest

/-- optimization.py:49-73: the result used -/
noncomputable def selectOpt (err : List ℝ → Option ℝ) (runs : List (Except Err Opt)) :
    Except Err Opt :=
  let all := collect runs
  match pickBest err none ⊥ all with
  | some r => .ok r
  | none => match all with
    | [] => .error .indexError
    | r :: _ => .ok r

/-- optimization.py:13-74: result and the re-parametrised distribution -/
noncomputable def optimizeMaxEnt (f : Family) (names : List String) (noneIdx : List ℕ)
    (fixed : List ℝ) (err : List ℝ → Option ℝ) (runs : List (Except Err Opt)) (o : Obj) :
    Except Err (Opt × Obj) := do
  let r ← selectOpt err runs
  let o ← applyCandidate f names noneIdx fixed r.x o
  return (r, o)

/-! ## Ranking -/

/-- `Loss` (optimization.py:500-514): best loss so far, best distribution so far, recorded losses;
`none` is NaN -/
structure Loss (α : Type) where
  old : EReal
  dist : Option α
  losses : List (Option EReal)
  dists : List α

noncomputable def Loss.init {α : Type} : Loss α := ⟨⊤, none, [], []⟩

noncomputable def Loss.update {α : Type} (s : Loss α) (loss : Option EReal) (d : α) : Loss α :=
  let s := { s with losses := s.losses ++ [loss], dists := s.dists ++ [d] }
  match loss with
  | some l => if l < s.old then { s with old := l, dist := some d } else s
  | none => s

/-- optimization.py:488-497, Python integer division of an integer by an integer -/
noncomputable def getPenalization (n k : ℕ) : Except Err ℝ := do
  let r ← pyDiv (((k : ℝ) + 1) * k) (-k + n - 1)
  return k + r

/-- what the sample fit needs to know about a candidate: are the data inside its support, the negative
log-likelihood after the fit, the number of parameters -/
structure Cand where
  compatible : Bool
  nll : Option EReal
  k : ℕ

/-- optimization.py:416-450 -/
noncomputable def fitToSample (n : ℕ) : List Cand → Loss Cand → Except Err (Loss Cand)
  | [], s => .ok s
  | d :: rest, s =>
    if d.compatible then do
      let corr ← getPenalization n d.k
      fitToSample n rest (s.update (d.nll.map fun v => v + (corr : EReal)) d)
    else fitToSample n rest (s.update (some ⊤) d)

/-- optimization.py:389-413: incompatible candidates are not recorded -/
noncomputable def fitToEpdf : List Cand → Loss Cand → Loss Cand
  | [], s => s
  | d :: rest, s => if d.compatible then fitToEpdf rest (s.update d.nll d) else fitToEpdf rest s

/-- optimization.py:453-478 -/
noncomputable def fitToQuartile : List Cand → EReal → Option Cand → Option Cand
  | [], _, best => best
  | d :: rest, error, best =>
    match d.compatible, d.nll with
    | true, some e => if e < error then fitToQuartile rest e (some d) else fitToQuartile rest error best
    | _, _ => fitToQuartile rest error best

/-! ## Validation -/

/-- distributions.py:568-606 with `raise_error=True` -/
noncomputable def checkEndpoints (sl su lower upper : EReal) : Except Err Unit :=
  if sl ≠ ⊥ ∧ sl ≠ ⊤ ∧ lower < sl then .error .valueError
  else if su ≠ ⊥ ∧ su ≠ ⊤ ∧ upper > su then .error .valueError
  else if sl ≠ ⊥ ∧ sl ≠ ⊤ ∧ su ≠ ⊥ ∧ su ≠ ⊤ ∧ lower = sl ∧ upper = su then .error .valueError
  else .ok ()

/-- distributions.py:568-606 with `raise_error=False` -/
noncomputable def insideEndpoints (sl su lower upper : EReal) : Prop := lower ≥ sl ∧ upper ≤ su

/-- maxent.py:111 -/
def validStats : List String := ["mean", "mode", "median", "var", "std", "skewness", "kurtosis"]

structure Request where
  fixedParams : Option Kw
  mass : Option ℝ
  fixedStat : Option (String × ℝ)
  lower : ℝ
  upper : ℝ

/-- maxent.py:99-100, quartile.py:94-95: `distribution._parametrization(**fixed_params)` if given -/
noncomputable def applyFixed (f : Family) (fixedParams : Option Kw) (o : Obj) : Except Err Obj :=
  match fixedParams with
  | none => .ok o
  | some kw => parametrize f kw o

/-- maxent.py:112 -/
def badStat : Option (String × ℝ) → Bool
  | none => false
  | some s => !validStats.contains s.1

/-- maxent.py:147 (`"mode" in fixed_stat`; the value is a number) -/
def wantsMode : Option (String × ℝ) → Bool
  | none => false
  | some s => s.1 = "mode"

/-- maxent.py:96-148, the part before the optimiser runs.  State is the distribution object;
`support` its support, `hasMode` whether `mode()` is implemented, `fitMoments` the moment heuristic.
The result is the outcome together with the object as it is afterwards. -/
noncomputable def maxentPrelude (f : Family) (sl su : EReal) (hasMode : Bool) (ciProb : ℝ)
    (fitMoments : Obj → Obj) (r : Request) (o : Obj) : Except Err (List ℕ × List ℝ) × Obj :=
  match applyFixed f r.fixedParams o with
  | .error e => (.error e, o)
  | .ok o =>
    let mass := r.mass.getD ciProb
    if badStat r.fixedStat then
      (.error .valueError, o)
    else if ¬ (0 < mass ∧ mass ≤ 1) then (.error .valueError, o)
    else if r.upper ≤ r.lower then (.error .valueError, o)
    else if o.frozen then (.error .valueError, o)
    else match checkEndpoints sl su r.lower r.upper with
      | .error e => (.error e, o)
      | .ok () =>
        let split := getFixedParams o
        let o := fitMoments o
        if wantsMode r.fixedStat && !hasMode then
          (.error .valueError, o)
        else (.ok split, o)

/-- quartile.py:91-120 -/
noncomputable def quartilePrelude (f : Family) (sl su : EReal) (fitMoments : Obj → Obj)
    (fixedParams : Option Kw) (q1 q2 q3 : ℝ) (o : Obj) : Except Err (List ℕ × List ℝ) × Obj :=
  match applyFixed f fixedParams o with
  | .error e => (.error e, o)
  | .ok o =>
    if ¬ (q1 < q2 ∧ q2 < q3) then (.error .valueError, o)
    else if o.frozen then (.error .valueError, o)
    else match checkEndpoints sl su q1 q3 with
      | .error e => (.error e, o)
      | .ok () => (.ok (getFixedParams o), fitMoments o)

/-! ## combine -/

/-- combine.py:57-60, combine_roulette.py:36-39 -/
noncomputable def startWeights (n : ℕ) : Option (List ℝ) → Except Err (List ℝ)
  | none => if n = 0 then .error .zeroDivision else .ok (List.replicate n (1 / (n : ℝ)))
  | some ws => .ok ws

/-- combine.py:54-71: number of draws taken from each distribution.  With a zero sum NumPy yields
NaN sizes, which `rvs` rejects. -/
noncomputable def combineSizes (nDists : ℕ) (weights : Option (List ℝ)) (sampleSize : ℕ) :
    Except Err (List ℤ) := do
  let ws ← startWeights nDists weights
  if ws.any (· < 0) then .error .valueError
  else if ws.sum = 0 then .error .valueError
  else
    let ws := ws.map (· / ws.sum)
    return (ws.map fun (w : ℝ) => ⌊(sampleSize : ℝ) * w⌋).take nDists

/-! ## combine_roulette -/

/-- one roulette answer: grid points with their probabilities, number of chips, grid description -/
structure Response where
  xs : List ℝ
  pdf : List ℝ
  chips : ℝ
  grid : List ℝ

/-- `new_pdf[x] += v` or `new_pdf[x] = v` -/
noncomputable def dictAdd (d : List (ℝ × ℝ)) (x v : ℝ) : List (ℝ × ℝ) :=
  match d with
  | [] => [(x, v)]
  | (y, w) :: rest => if x = y then (y, w + v) :: rest else (y, w) :: dictAdd rest x v

/-- combine_roulette.py:57-64 -/
noncomputable def pool (rs : List Response) (ws : List ℝ) : List (ℝ × ℝ) :=
  (rs.zip ws).foldl (fun d rw =>
    (rw.1.xs.zip rw.1.pdf).foldl (fun d xp => dictAdd d xp.1 (xp.2 * rw.2 * rw.1.chips)) d) []

structure Pooled where
  dict : List (ℝ × ℝ)
  mean : ℝ
  std : ℝ

/-- combine_roulette.py:36-81: the arguments handed to the fit.  A zero total gives NaN (here an
error marked `runtimeError`). -/
noncomputable def combineRoulette (rs : List Response) (weights : Option (List ℝ)) :
    Except Err Pooled := do
  let ws ← startWeights rs.length weights
  if ws.any (· < 0) then .error .valueError
  else
    let ws := ws.map (· / ws.sum)
    if !(rs.all fun r => r.grid = (rs.head?.map Response.grid).getD []) then .error .valueError
    else
      let d := pool rs ws
      let total := (d.map Prod.snd).sum
      if total = 0 then .error .runtimeError
      else
        let d := d.map fun xp => (xp.1, xp.2 / total)
        let mean := (d.map fun xp => xp.1 * xp.2).sum
        let var := (d.map fun xp => xp.2 * (xp.1 - mean) ^ 2).sum
        return ⟨d, mean, Real.sqrt var⟩

end Verif.Optim
