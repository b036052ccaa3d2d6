import Verif.Basics

/-!
# match_moments (preliz/unidimensional/matching.py:80-146) up to the optimiser

A number is `none` if it is not finite.  The optimiser is external; what it minimises is `objective`.
-/

namespace Verif.Match

/-- what a distribution reports about itself -/
structure Moments where
  mean : Option ℝ
  std : Option ℝ
  var : Option ℝ
  skew : Option ℝ
  kurt : Option ℝ

/-- distributions.py:371-385: one letter -/
def Moments.letter (d : Moments) (c : Char) : Except Err (Option ℝ) :=
  if c = 'm' then .ok d.mean
  else if c = 'd' then .ok d.std
  else if c = 'v' then .ok d.var
  else if c = 's' then .ok d.skew
  else if c = 'k' then .ok d.kurt
  else .error .valueError

/-- distributions.py:354-387 `moments` -/
def Moments.moments (d : Moments) : List Char → Except Err (List (Option ℝ))
  | [] => .ok []
  | c :: cs => do
    let v ← d.letter c
    let vs ← d.moments cs
    .ok (v :: vs)

/-- `np.mean` of an array of finite numbers -/
noncomputable def arrMean (data : List ℝ) : Option ℝ :=
  if data = [] then none else some (data.sum / data.length)

/-- `np.var`, `np.std` -/
noncomputable def arrVar (data : List ℝ) : Option ℝ :=
  (arrMean data).bind fun m => arrMean (data.map fun x => (x - m) ^ 2)

noncomputable def arrStd (data : List ℝ) : Option ℝ := (arrVar data).map Real.sqrt

/-- matching.py:113, 115: the mean of a power of the standardised values -/
noncomputable def arrStandard (data : List ℝ) (p : ℕ) : Option ℝ :=
  (arrMean data).bind fun m => (arrStd data).bind fun s =>
    if s = 0 then none else arrMean (data.map fun x => ((x - m) / s) ^ p)

/-- matching.py:103-116: the targets for an array -/
noncomputable def arrayTargets (moments : List Char) (data : List ℝ) : List (Option ℝ) :=
  (if 'm' ∈ moments then [arrMean data] else []) ++
  (if 'v' ∈ moments then [arrVar data] else []) ++
  (if 'd' ∈ moments then [arrStd data] else []) ++
  (if 's' ∈ moments then [arrStandard data 3] else []) ++
  (if 'k' ∈ moments then [arrStandard data 4] else [])

/-- what the user passes as `from_dist` -/
inductive From
  | dist (frozen : Bool) (d : Moments)
  | array (data : List ℝ)

/-- matching.py:94-121: the targets -/
noncomputable def targets (moments : List Char) (src : From) : Except Err (List (Option ℝ)) := do
  let t ← match src with
    | .dist false _ => .error .valueError
    | .dist true d => d.moments moments
    | .array data => .ok (arrayTargets moments data)
  if t.any Option.isSome then .ok t else .error .valueError

/-- optimization.py:128-133: what is minimised, for equally many finite values -/
noncomputable def objective (vals target : List ℝ) : ℝ :=
  ((vals.zip target).map fun p => (p.1 - p.2) ^ 2).sum

/-- matching.py:270-285: does the check warn?  (finite values; a target of exactly -1e-6 divides by zero,
which NumPy turns into an infinite or undefined error) -/
noncomputable def warns (target requested : List ℝ) : Bool :=
  (requested.zip target).any fun p => decide (|(p.1 - p.2) / (p.2 + 1e-6) * 100| > 0.01)

end Verif.Match
