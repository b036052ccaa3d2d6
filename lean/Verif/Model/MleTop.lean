import Verif.Model.Optim

/-!
# The function `mle` (unidimensional/mle.py:11-99) and the objects it is given

The fits themselves are parameters (`Methods`): what is modelled is which objects are changed, in which order, what is
returned and when there is a warning.  Objects live in a heap; a PyMC variable is converted to a new object.  Samples are
one-dimensional (rows of a two-dimensional sample: C75).
-/

namespace Verif.MleTop
open Verif Verif.Optim

/-- the methods of distribution objects that are used -/
structure Methods (D : Type) where
  name : D → String
  /-- `update_bounds_beta_scaled` -/
  setBounds : D → ℝ → ℝ → D
  /-- `_check_endpoints(…, raise_error=False)` -/
  inside : D → ℝ → ℝ → Bool
  /-- `_fit_mle` -/
  fit : D → List ℝ → Except Err D
  /-- `-logpdf(sample).sum()`, `none` is NaN -/
  nll : D → List ℝ → Option EReal
  /-- `len(params)` -/
  nparams : D → ℕ
  /-- `is_frozen` -/
  frozen : D → Bool

/-- what the user passes -/
inductive Arg (P : Type)
  | object (ref : ℕ)
  | pymc (v : P)

variable {D P : Type}

/-- distribution_helper.py:61-65 -/
def valid (m : Methods D) (d : D) : Except Err Unit :=
  if m.name d ≠ "Categorical" then .ok () else .error .valueError

/-- mle.py:71-74: the objects, and the heap with the converted ones -/
def gather (m : Methods D) (convert : P → Except Err D) : List (Arg P) → List D → Except Err (List ℕ × List D)
  | [], heap => .ok ([], heap)
  | .object ref :: rest, heap =>
    match heap[ref]? with
    | none => .error .attributeError
    | some d => do
      valid m d
      let r ← gather m convert rest heap
      return (ref :: r.1, r.2)
  | .pymc v :: rest, heap => do
    let d ← convert v
    valid m d
    let r ← gather m convert rest (heap ++ [d])
    return (heap.length :: r.1, r.2)

/-- optimization.py:418-448: the losses, in order, and the heap, also after an error.  (An error inside `_fit_mle` may leave
the object half changed; it is kept as before.) -/
noncomputable def fitAll (m : Methods D) (sample : List ℝ) (lo hi : ℝ) :
    List ℕ → List D → List D × Except Err (List (Option EReal))
  | [], heap => (heap, .ok [])
  | r :: rs, heap =>
    match heap[r]? with
    | none => (heap, .error .attributeError)
    | some d =>
      let d := if m.name d ∈ ["BetaScaled", "TruncatedNormal"] then m.setBounds d lo hi else d
      let heap := heap.set r d
      if m.inside d lo hi then
        match m.fit d sample with
        | .error e => (heap, .error e)
        | .ok f =>
          let heap := heap.set r f
          match getPenalization sample.length (m.nparams f) with
          | .error e => (heap, .error e)
          | .ok corr =>
            let rest := fitAll m sample lo hi rs heap
            (rest.1, rest.2.map (((m.nll f sample).map fun v => v + (corr : EReal)) :: ·))
      else
        let rest := fitAll m sample lo hi rs heap
        (rest.1, rest.2.map (some ⊤ :: ·))

/-- `np.argsort` orders NaN last -/
def before : Option EReal → Option EReal → Prop
  | some a, some b => a ≤ b
  | none, some _ => False
  | _, none => True

/-- any sorting algorithm -/
structure Sorter where
  sort : List (Option EReal) → List ℕ
  perm : ∀ l, (sort l).Perm (List.range l.length)
  sorted : ∀ l, (sort l).Pairwise fun i j => before (l.getD i none) (l.getD j none)

structure Out where
  idx : List ℕ
  warned : Bool
  /-- the objects whose density is drawn -/
  drawn : List ℕ

/-- `frozen` of the object behind a reference -/
def frozenAt (m : Methods D) (heap : List D) (r : ℕ) : Bool :=
  match heap[r]? with
  | some d => m.frozen d
  | none => false

/-- mle.py:71-99; `plot` is a natural number, `showPlot` the setting `plots.show_plot` -/
noncomputable def mle (m : Methods D) (convert : P → Except Err D) (s : Sorter) (args : List (Arg P)) (sample : List ℝ)
    (plot : ℕ) (showPlot : Bool) (heap : List D) : List D × Except Err Out :=
  match gather m convert args heap with
  | .error e => (heap, .error e)
  | .ok (refs, heap) =>
    match sample with
    | [] => (heap, .error .valueError)
    | x :: xs =>
      let out := fitAll m sample (xs.foldl min x) (xs.foldl max x) refs heap
      match out.2 with
      | .error e => (out.1, .error e)
      | .ok losses =>
        let idx := s.sort losses
        let chosen := if showPlot then (idx.take (min plot refs.length)).filterMap fun i => refs[i]? else []
        (out.1, .ok ⟨idx, refs.all fun r => !frozenAt m out.1 r, chosen.filter (frozenAt m out.1)⟩)

end Verif.MleTop
