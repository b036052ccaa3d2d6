import Verif.Basics

/-!
# Projection of a target onto a model: `optimize_pymc_model` and `get_weighted_rvs`

internal/optimization.py:347-379 and 628-633, predictive/ppe.py:63-90.  The random generator is a state passed along;
scipy's `minimize` is a function of the loss, the starting point and the observations.
-/

namespace Verif.Project
open Verif

/-- A numpy generator with states `σ`.  `pick n size` are the draws of `rng.choice(n, size=size, p=weights)` once numpy
has accepted the weights. -/
structure Rng (σ : Type) where
  pick : ℕ → ℕ → List ℝ → σ → List ℕ × σ
  pick_length : ∀ n size w s, (pick n size w s).1.length = size
  pick_lt : ∀ n size w s, n ≠ 0 → ∀ i ∈ (pick n size w s).1, i < n

/-- a target distribution: `rvs(size, random_state=rng)` and `rvs(size, seed)` -/
structure Target (σ : Type) where
  rvs : ℕ → σ → List ℝ × σ
  seeded : ℕ → ℕ → List ℝ
  rvs_length : ∀ n s, (rvs n s).1.length = n

/-- `np.sqrt(np.finfo(float).eps)`, numpy's tolerance for the sum of probabilities -/
noncomputable def tol : ℝ := (1 / 2) ^ 26

open Classical in
/-- `rng.choice(len(targets), size=size, p=weights)`: numpy raises ValueError for no options, for negative probabilities
and for probabilities that do not sum to one -/
noncomputable def choice {σ : Type} (r : Rng σ) (n size : ℕ) (w : List ℝ) (s : σ) : Except Err (List ℕ × σ) :=
  if n = 0 then .error .valueError
  else if ∃ x ∈ w, x < 0 then .error .valueError
  else if |w.sum - 1| > tol then .error .valueError
  else .ok (r.pick n size w s)

/-- `np.choose(choices, samples)`: element `i` of the sample number `choices[i]` -/
def choose : ℕ → List ℕ → List (List ℝ) → Except Err (List ℝ)
  | _, [], _ => .ok []
  | i, c :: cs, samples => do
    let x ← match samples[c]?.bind (·[i]?) with
      | some x => .ok x
      | none => .error .valueError
    return x :: (← choose (i + 1) cs samples)

/-- optimization.py:632: the samples, one after the other -/
def draws {σ : Type} (size : ℕ) : List (Target σ) → σ → List (List ℝ) × σ
  | [], s => ([], s)
  | t :: ts, s =>
    let r := t.rvs size s
    let rest := draws size ts r.2
    (r.1 :: rest.1, rest.2)

/-- optimization.py:628-633 -/
noncomputable def weightedRvs {σ : Type} (r : Rng σ) (target : List (Target σ × ℝ)) (size : ℕ) (s : σ) :
    Except Err (List ℝ × σ) := do
  let c ← choice r target.length size (target.map Prod.snd) s
  let d := draws size (target.map Prod.fst) c.2
  let obs ← choose 0 c.1 d.1
  return (obs, d.2)

inductive Targets (σ : Type)
  | one (t : Target σ)
  | many (ts : List (Target σ × ℝ))

/-- optimization.py:361-364: the observations of round `idx` -/
noncomputable def observe {σ : Type} (r : Rng σ) (target : Targets σ) (numDraws idx : ℕ) (s : σ) :
    Except Err (List ℝ × σ) :=
  match target with
  | .many ts => weightedRvs r ts numDraws s
  | .one t => .ok (t.seeded numDraws idx, s)

/-- optimization.py:357-377: rounds `idx`, `idx + 1`, …, `left` of them; `minimize` is called with the current start -/
noncomputable def rounds {σ : Type} (r : Rng σ) (minimize : List ℝ → List ℝ → List ℝ) (target : Targets σ)
    (numDraws : ℕ) : ℕ → ℕ → List (List ℝ) → List ℝ → σ → Except Err (List (List ℝ))
  | 0, _, arr, _, _ => .ok arr
  | left + 1, idx, arr, start, s => do
    let o ← observe r target numDraws idx s
    let x := minimize o.1 start
    let arr := if idx ≠ 0 then arr.set (idx - 1) x else arr
    rounds r minimize target numDraws left (idx + 1) arr x o.2

/-- optimization.py:347-379 -/
noncomputable def project {σ : Type} (r : Rng σ) (minimize : List ℝ → List ℝ → List ℝ) (target : Targets σ)
    (numDraws iters : ℕ) (guess : List ℝ) (s : σ) : Except Err (List (List ℝ)) :=
  rounds r minimize target numDraws (iters + 1) 0 (List.replicate iters (List.replicate guess.length 0)) guess s

end Verif.Project
