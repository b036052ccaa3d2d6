import Verif.Model.NumFit

/-!
# The runs of maxent, with the distribution object as mutable state

internal/optimization.py:13-74.  Five runs of `scipy.optimize.minimize` from five starting points; the objective and the
constraint re-parametrise the object they work on.  A run is an arbitrary strategy: it asks for the objective or the constraint
at points of its choice, one after the other, and stops with a point and a value of the objective, or raises.
-/

namespace Verif.MaxentRun
open Verif Verif.Param Verif.Optim Verif.NumFit

/-- what `minimize` does next; NaN is `none` -/
inductive Quest
  | stop (x : List ℝ) (value : Option EReal)
  | fail (e : Err)
  | objective (x : List ℝ) (next : Option EReal → Quest)
  | constraint (x : List ℝ) (next : Option ℝ → Quest)

/-- `minimize`: starting point and bounds of the free parameters -/
abbrev Minimiser := List EReal → Box → Quest

/-- optimization.py:40-43: the current values, then the values multiplied by 0.75, 0.9, 1.1 and 1.25 and put into the bounds
(`np.clip` is the minimum of the upper end and the maximum of value and lower end) -/
noncomputable def starts (current : List ℝ) (bounds : Box) : List (List EReal) :=
  current.map (fun v : ℝ => (v : EReal)) :: [0.75, 0.9, 1.1, 1.25].map fun scale : ℝ =>
    List.zipWith (fun v b => min b.2 (max ((v * scale : ℝ) : EReal) b.1)) current bounds

/-- what the two functions passed to `minimize` need: `entropy` and `prob_bound` of a distribution with given law (these
may raise), the class, the names of the parameters and the splitting into free and given ones -/
structure Setup where
  f : Family
  names : List String
  noneIdx : List ℕ
  fixed : List ℝ
  entropy : List (Option ℝ) → Except Err (Option EReal)
  bound : List (Option ℝ) → Except Err (Option ℝ)

/-- `dist._parametrization(**get_params(dist, x, none_idx, fixed_params))` (optimization.py:15-16, 27-28, 72-73) -/
noncomputable def Setup.apply (s : Setup) (x : List ℝ) (o : Obj) : Except Err Obj :=
  applyCandidate s.f s.names s.noneIdx s.fixed x o

/-- one run of `minimize` (optimization.py:51-53): its outcome and the object as the run leaves it.  What a failing
`_parametrization` has changed before it fails is not followed. -/
noncomputable def go (s : Setup) : Quest → Obj → Except Err Opt × Obj
  | .stop x v, o => (.ok ⟨x, v⟩, o)
  | .fail e, o => (.error e, o)
  | .objective x next, o =>
    match s.apply x o with
    | .error e => (.error e, o)
    | .ok o => match s.entropy (law s.f o) with
      | .error e => (.error e, o)
      | .ok h => go s (next (h.map fun h => -h)) o
  | .constraint x next, o =>
    match s.apply x o with
    | .error e => (.error e, o)
    | .ok o => match s.bound (law s.f o) with
      | .error e => (.error e, o)
      | .ok b => go s (next b) o

/-- optimization.py:45-56: the runs, up to the first that raises -/
noncomputable def goAll (s : Setup) (m : Minimiser) (bounds : Box) : List (List EReal) → Obj → List Opt × Obj
  | [], o => ([], o)
  | p :: rest, o =>
    match go s (m p bounds) o with
    | (.error _, o) => ([], o)
    | (.ok r, o) =>
      let more := goAll s m bounds rest o
      (r :: more.1, more.2)

/-- optimization.py:61-67: the constraint is evaluated again at the end of each run, on the object -/
noncomputable def pick (s : Setup) : Option Opt → EReal → List Opt → Obj → Except Err (Option Opt × Obj)
  | best, _, [], o => .ok (best, o)
  | best, ent, r :: rest, o => do
    let o ← s.apply r.x o
    let b ← s.bound (law s.f o)
    match b, r.value with
    | some b, some v =>
      if |b| < 1 / 10000 then
        if -v > ent then pick s (some r) (-v) rest o else pick s best ent rest o
      else pick s best ent rest o
    | _, _ => pick s best ent rest o

/-- optimization.py:38, 42: the current values of the free parameters; `None` cannot be multiplied -/
def currentValues (noneIdx : List ℕ) (o : Obj) : Except Err (List ℝ) :=
  noneIdx.mapM fun i => match ((o.params.getD [])[i]?).join with
    | some v => .ok v
    | none => .error .typeError

/-- optimization.py:13-74: the run used and the object -/
noncomputable def optimize (s : Setup) (m : Minimiser) (box : Box) (o : Obj) : Except Err (Opt × Obj) := do
  let bounds := s.noneIdx.filterMap fun i => box[i]?
  let current ← currentValues s.noneIdx o
  let all := goAll s m bounds (starts current bounds) o
  let chosen ← pick s none ⊥ all.1 all.2
  let best ← match chosen.1, all.1 with
    | some r, _ => Except.ok r
    | none, r :: _ => .ok r
    | none, [] => .error .indexError
  let o ← s.apply best.x chosen.2
  return (best, o)

end Verif.MaxentRun
