import Verif.Model.Modifier

/-!
# Sizes and shapes of samples

preliz/distributions/{truncated,censored,hurdle,mixture}.py, method `rvs`.  The values themselves are
in `Verif.Model.Modifier` (`truncRvs`, `censRvs`, `hurdleRvs`, `mixRvs`); here is the shape of the
array that is returned.  numpy's generators return an array of the shape named by `size`, and a
scalar (no dimension) for `size=None`.
-/

namespace Verif.Sample
open Verif

/-- the argument `size` -/
inductive Size
  | none
  | int (n : ℕ)
  | tuple (dims : List ℕ)

/-- the shape of `rng.uniform(size=size)` and of `rng.choice(k, size=size)` -/
def shape : Size → List ℕ
  | .none => []
  | .int n => [n]
  | .tuple ds => ds

/-- number of entries of an array of a given shape -/
def entries (sh : List ℕ) : ℕ := sh.prod

/-- truncated.py:120-122 and hurdle.py:109-111: `ppf` works entry by entry -/
def inverseShape (s : Size) : Except Err (List ℕ) := .ok (shape s)

/-- censored.py:169-170: `np.clip` keeps the shape of the base sample; `base` is the shape returned
by the `rvs` of the base -/
def censShape (base : Size → Except Err (List ℕ)) (s : Size) : Except Err (List ℕ) := base s

/-- mixture.py:136-144: every component is asked for a plain number of values and the pieces are
concatenated; `np.concatenate([])` raises ValueError -/
def mixShape (s : Size) : Except Err (List ℕ) :=
  if entries (shape s) = 0 then .error .valueError else .ok [entries (shape s)]

end Verif.Sample
