import Verif.Basics
import Mathlib.Data.EReal.Basic
import Mathlib.Data.Finset.Max
import Mathlib.Data.Finset.Sort
import Mathlib.Data.Finset.Lattice.Fold
import Mathlib.Data.Fintype.Basic
import Mathlib.Data.Real.Basic
import Mathlib.Data.Finset.Union
import Mathlib.Algebra.Order.Floor.Semiring
import Mathlib.Data.Real.Sqrt

/-!
# The prior predictive assistant (preliz/predictive/ppa.py)

The sampled data, the nearest-neighbour tree, the random choices and the user's clicks are inputs.
Drawing is reduced to which index each set of axes carries as its title, because that is what a click
reads back.
-/

namespace Verif.Ppa

/-- What is fixed once the samples are drawn (ppa.py:183-190).

`order (some i)` lists all samples from the nearest to the farthest of sample `i`'s octiles, `order none`
from the nearest to the farthest of the target's octiles (the KD-tree, which is external). -/
structure Env where
  draws : ℕ
  width : ℕ
  sample : ℕ → Fin (width + 1) → ℝ
  lower : EReal
  upper : EReal
  order : Option ℕ → List ℕ
  order_perm : ∀ s, (order s).Perm (List.range draws)

variable (env : Env)

/-- `np.min(sample)` -/
noncomputable def Env.minOf (i : ℕ) : ℝ := Finset.univ.inf' Finset.univ_nonempty (env.sample i)

/-- `np.max(sample)` -/
noncomputable def Env.maxOf (i : ℕ) : ℝ := Finset.univ.sup' Finset.univ_nonempty (env.sample i)

/-- ppa.py:236: the sample is excluded from the display -/
def Env.outside (i : ℕ) : Prop := (env.minOf i : EReal) < env.lower ∨ env.upper < (env.maxOf i : EReal)

open Classical in
/-- ppa.py:234-239 -/
noncomputable def Env.excluded : Finset ℕ := (Finset.range env.draws).filter env.outside

/-- ppa.py:345: the sample may be selected automatically -/
def Env.strictlyInside (i : ℕ) : Prop :=
  env.lower < (env.minOf i : EReal) ∧ (env.maxOf i : EReal) < env.upper

/-- ppa.py:341: `np.any(np.isfinite(boundaries))` -/
def Env.bounded : Prop := (env.lower ≠ ⊥ ∧ env.lower ≠ ⊤) ∨ (env.upper ≠ ⊥ ∧ env.upper ≠ ⊤)

/-- ppa.py:159-175.  `distances` keeps only the keys; `axes` are the titles of the axes, `none` for a
blank title. -/
structure State where
  shown : Finset ℕ
  selected : Finset ℕ
  choices : List ℕ
  distances : Finset ℕ
  display : List ℕ
  axes : List (Option ℕ)

/-- ppa.py:249-255: go from the farthest neighbour inwards.  The query asks for the `k`-th neighbour and
`k` counts from one; asking for the 0-th one is outside what the tree supports, the model marks it as an
error. -/
def farthest (order : List ℕ) (seen : List ℕ) (shown : Finset ℕ) : ℕ → ℕ → Except Err ℕ
  | 0, new => if new ∈ seen ∨ new ∈ shown then .error .valueError else .ok new
  | k + 1, new =>
    if new ∈ seen ∨ new ∈ shown then farthest order seen shown k (order.getD k order.length) else .ok new

/-- ppa.py:248-258: `rounds` further samples, each far from the previous one -/
def farRounds (shown : Finset ℕ) : ℕ → ℕ → List ℕ → Except Err (List ℕ)
  | 0, _, seen => .ok seen
  | rounds + 1, new, seen => do
    let new ← farthest (env.order seen.getLast?) seen shown env.draws new
    farRounds shown rounds new (if new ≠ env.draws then seen ++ [new] else seen)

/-- ppa.py:264-270, 293-299: go through the neighbours from the second one (`rest` is the order without
its first entry).  `new = none` is the `-1` that starts the search around the target and is in the list
of indexes to skip.  Past the last neighbour the query answers `draws`, which is never among the indexes
to skip, so the loop stops there. -/
def nearest (draws : ℕ) (seen : List ℕ) (shown : Finset ℕ) : List ℕ → Option ℕ → ℕ
  | [], none => draws
  | [], some x => if x ∈ seen ∨ x ∈ shown then draws else x
  | y :: rest, none => nearest draws seen shown rest (some y)
  | y :: rest, some x =>
    if x ∈ seen ∨ x ∈ shown then nearest draws seen shown rest (some y) else x

/-- ppa.py:260-276 without the leading `-1`: the samples nearest to the target; `shown` is not
consulted -/
def targetRounds : ℕ → Option ℕ → List ℕ → List ℕ
  | 0, _, seen => seen
  | rounds + 1, new, seen =>
    let new := nearest env.draws seen ∅ (env.order none).tail new
    targetRounds rounds (some new) (if new ≠ env.draws then seen ++ [new] else seen)

/-- ppa.py:290-304: the samples near to the last found one; `seen` starts with the choice -/
def keepRounds (shown : Finset ℕ) : ℕ → ℕ → List ℕ → List ℕ
  | 0, _, seen => seen
  | rounds + 1, new, seen =>
    let new := nearest env.draws seen shown (env.order seen.getLast?).tail (some new)
    keepRounds shown rounds new (if new ≠ env.draws then seen ++ [new] else seen)

open Classical in
/-- ppa.py:232-280.  `first` is the random choice among the samples not shown yet. -/
noncomputable def initSubsamples (first : List ℕ → ℕ) (st : State) (target : Bool) :
    State × Except Err (List ℕ) :=
  let shown := st.shown ∪ env.excluded
  if shown.card = env.draws then ({ st with shown := shown }, .ok [])
  else if target then
    let l := targetRounds env 9 none []
    ({ st with shown := shown ∪ l.toFinset, distances := st.distances ∪ l.toFinset }, .ok l)
  else
    let unseen := (List.range env.draws).filter (· ∉ shown)
    if unseen = [] then ({ st with shown := shown }, .error .valueError)
    else
      match farRounds env shown 8 (first unseen) [first unseen] with
      | .error e => ({ st with shown := shown }, .error e)
      | .ok l => ({ st with shown := shown ∪ l.toFinset }, .ok l)

/-- ppa.py:282-310 -/
def keepSampling (st : State) : State × List ℕ :=
  match st.choices with
  | [] => (st, [])
  | c :: cs =>
    let l := (keepRounds env st.shown 9 c [c]).tail
    ({ st with choices := cs, shown := st.shown ∪ l.toFinset,
               distances := st.distances ∪ l.toFinset }, l)

open Classical in
/-- ppa.py:312-351.  `near i k` says whether the `k`-th neighbour of `i` is within the distance bound
computed from the known distances (the bound and the distances are not modelled). -/
noncomputable def collectMore (near : ℕ → ℕ → Bool) (st : State) : State :=
  let upper := if 2 < (st.distances ∩ st.selected).card then env.draws else 3
  let new : Finset ℕ := st.selected.biUnion fun i =>
    (((List.range upper).drop 2).filterMap fun k =>
      if near i k then (env.order (some i))[k - 1]? else none).toFinset
  let new := if env.bounded then new.filter env.strictlyInside else new
  { st with selected := st.selected ∪ new, shown := st.shown ∪ new }

/-- What one press of "carry on" depends on: the clicked axes, the shuffling, the neighbours within the
distance bound and the random first sample. -/
structure Round where
  clicked : List ℕ
  shuffle : List ℕ → List ℕ
  shuffle_perm : ∀ l, (shuffle l).Perm l
  near : ℕ → ℕ → Bool
  first : List ℕ → ℕ
  first_mem : ∀ l, l ≠ [] → first l ∈ l

/-- ppa.py:358: the index read back from the title; a blank title is not a number -/
def titleOf (axes : List (Option ℕ)) (position : ℕ) : Except Err ℕ :=
  match axes[position]? with
  | some (some i) => .ok i
  | _ => .error .valueError

/-- ppa.py:357-368: take over the clicked samples, extend the selection, blank the axes -/
noncomputable def takeClicked (r : Round) (st : State) : Except Err State :=
  if r.clicked = [] then .ok st
  else do
    let titles ← r.clicked.mapM (titleOf st.axes)
    let choices := r.shuffle (st.choices ++ titles)
    let st := collectMore env r.near { st with choices := choices, selected := st.selected ∪ choices.toFinset }
    return { st with axes := st.axes.map fun _ => none }

/-- plot_helper.py:550-598, titles only: the first axes get the displayed indexes, the others keep what
they had -/
def plotTitles (axes : List (Option ℕ)) (display : List ℕ) : List (Option ℕ) :=
  (display.map some).take axes.length ++ axes.drop display.length

/-- ppa.py:353-386; the returned list is what is displayed, empty for the all-seen message -/
noncomputable def carryOn (r : Round) (st : State) : State × Except Err (List ℕ) :=
  match takeClicked env r st with
  | .error e => (st, .error e)
  | .ok st =>
    let kept := keepSampling env st
    if kept.2 ≠ [] then
      ({ kept.1 with display := kept.2, axes := plotTitles st.axes kept.2 }, .ok kept.2)
    else
      let ini := initSubsamples env r.first kept.1 false
      match ini.2 with
      | .error e => ({ ini.1 with display := [] }, .error e)
      | .ok l =>
        ({ ini.1 with display := l, axes := if l = [] then [] else plotTitles st.axes l }, .ok l)

/-- ppa.py:177-197: the first display.  An empty display makes `plt.subplots(0, 0)` fail. -/
noncomputable def start (first : List ℕ → ℕ) (target : Bool) : State × Except Err (List ℕ) :=
  let ini := initSubsamples env first ⟨∅, ∅, [], ∅, [], []⟩ target
  match ini.2 with
  | .error e => (ini.1, .error e)
  | .ok l =>
    let side := ⌈Real.sqrt l.length⌉₊
    ({ ini.1 with display := l, axes := plotTitles (List.replicate (side * side) none) l },
      if l = [] then .error .valueError else .ok l)

/-- a session: what each press of "carry on" displayed (`none` for a press that raised), oldest first,
and the final state -/
noncomputable def session (st : State) : List Round → List (Option (List ℕ)) × State
  | [] => ([], st)
  | r :: rs =>
    let one := carryOn env r st
    let rest := session one.1 rs
    ((match one.2 with | .ok l => some l | .error _ => none) :: rest.1, rest.2)

/-! ## Aligned samples (preliz/ppls/agnostic.py:178-199, preliz/internal/predictive_helper.py:33-37) -/

/-- The samples of one variable: agnostic.py:184-191, engine "preliz".  `evals` are the tuples returned
by the successive evaluations of the model function, `names` the names in its return statement; every
pair of the zip with the right name appends one value. -/
def samplesOf {V : Type} (names : List String) (evals : List (List V)) (name : String) : List V :=
  evals.flatMap fun values => ((names.zip values).filter fun p => p.1 = name).map Prod.snd

/-- agnostic.py:184-196: the prior predictive samples and the prior samples -/
def priorPpSamples {V : Type} (names : List String) (evals : List (List V)) :
    Except Err (List V × List (String × List V)) :=
  match names.getLast? with
  | none => .error .indexError
  | some obs => .ok (samplesOf names evals obs,
      names.dropLast.map fun name =>
        (name, if name = obs then [] else samplesOf names evals name))

/-- Python's `d[key]` -/
def fetch {K V : Type} [BEq K] (d : List (K × V)) (k : K) : Except Err V :=
  match d.lookup k with
  | some v => .ok v
  | none => .error .keyError

/-- NumPy's `a[i]` along the first axis -/
def row {V : Type} (column : List V) (i : ℕ) : Except Err V :=
  match column[i]? with
  | some v => .ok v
  | none => .error .indexError

/-- predictive_helper.py:33-37, one variable -/
def selectOne {V : Type} (selected : List ℕ) (prior : List (String × List V)) (name : String) :
    Except Err (String × List V) := do
  let column ← fetch prior name
  let rows ← selected.mapM (row column)
  return (name, rows)

/-- predictive_helper.py:33-37: pick the selected rows of every model variable -/
def selectPrior {V : Type} (selected : List ℕ) (prior : List (String × List V)) (keys : List String) :
    Except Err (List (String × List V)) :=
  keys.mapM (selectOne selected prior)

end Verif.Ppa
