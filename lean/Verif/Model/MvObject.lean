import Verif.Model.Multivariate
import Verif.Model.Interval
import Verif.Model.Roulette
import Mathlib.LinearAlgebra.Matrix.PosDef

/-!
# Dirichlet and MvNormal as objects: what can be asked of them, and interactive sessions

distributions/distributions_multivariate.py and distributions/continuous_multivariate.py:60-94, 423-442, 538-586 and 907-935.
The frozen scipy object is represented by the parameters it was made with.
-/

namespace Verif.MvObject
open Verif Verif.Multivariate

/-! ## MvNormal -/

/-- an object and the parameters of its frozen scipy distribution (`rv_frozen`), if there is one -/
structure MvLive (n : ℕ) where
  obj : MvObj n
  frozen : Option ((Fin n → ℝ) × Matrix (Fin n) (Fin n) ℝ)

/-- distributions_multivariate.py:35-40 and continuous_multivariate.py:563-567.  `all_not_none(self)` is always true, so the
distribution is frozen whenever `_update` is called; scipy refuses (ValueError) a matrix that is not positive semidefinite. -/
noncomputable def mvFreeze {n : ℕ} (o : MvObj n) : Except Err (MvLive n) :=
  match o.secondValue, o.mu, o.cov with
  | some _, some m, some c => open Classical in if c.PosSemidef then .ok ⟨o, some (m, c)⟩ else .error .valueError
  | _, _, _ => .ok ⟨o, none⟩

/-- continuous_multivariate.py:538-580 -/
noncomputable def mvLive {n : ℕ} (mu : Option (Fin n → ℝ)) (cov tau : Option (Matrix (Fin n) (Fin n) ℝ)) :
    Except Err (MvLive n) := do
  let o ← mvNormal mu cov tau
  mvFreeze o

/-- distributions_multivariate.py:59-61: `mean` of the frozen normal is an array, calling it is a TypeError -/
def mvMean {n : ℕ} (o : MvLive n) : Except Err (Fin n → ℝ) :=
  match o.frozen with
  | none => .error .attributeError
  | some _ => .error .typeError

/-- distributions_multivariate.py:63-65 with continuous_multivariate.py:580 -/
def mvVar {n : ℕ} (o : MvLive n) : Except Err (Fin n → ℝ) :=
  match o.frozen, o.obj.cov with
  | some _, some c => .ok fun i => c i i
  | _, _ => .error .attributeError

/-- distributions_multivariate.py:42-57: mean and standard deviation -/
noncomputable def mvSummary {n : ℕ} (o : MvLive n) : Except Err ((Fin n → ℝ) × (Fin n → ℝ)) :=
  match o.frozen with
  | none => .error .valueError
  | some (m, _) => do
    let v ← mvVar o
    return (m, fun i => Real.sqrt (v i))

/-- continuous_multivariate.py:585-586 -/
def mvMode {n : ℕ} (o : MvLive n) : Option (Fin n → ℝ) := o.obj.mu

/-- continuous_multivariate.py:913-914: the matrices kept for the session; `params` does not exist before the distribution
is specified (AttributeError) -/
def mvKept {n : ℕ} (o : MvLive n) :
    Except Err (Option (Matrix (Fin n) (Fin n) ℝ) × Option (Matrix (Fin n) (Fin n) ℝ)) :=
  match o.obj.secondValue with
  | none => .error .attributeError
  | some v => if o.obj.second = "cov" then .ok (some v, none) else .ok (none, some v)

/-- continuous_multivariate.py:913-935: the object after a session in which the sliders were moved to these means -/
noncomputable def mvSession {n : ℕ} (o : MvLive n) (moves : List (Fin n → ℝ)) : Except Err (MvLive n) := do
  let (cov, tau) ← mvKept o
  let start ← mvLive o.obj.mu cov tau
  moves.foldlM (fun _ m => mvLive (some m) cov tau) start

/-! ## Dirichlet -/

structure DirLive (n : ℕ) where
  alpha : Option (Fin n → ℝ)
  frozen : Option (Fin n → ℝ)

/-- continuous_multivariate.py:60-84; scipy refuses (ValueError) parameters that are not positive -/
noncomputable def dirLive {n : ℕ} (alpha : Option (Fin n → ℝ)) : Except Err (DirLive n) :=
  match alpha with
  | none => .ok ⟨none, none⟩
  | some a => open Classical in if ∀ i, 0 < a i then .ok ⟨some a, some a⟩ else .error .valueError

/-- distributions_multivariate.py:59-61 and scipy's formula -/
noncomputable def dirMean {n : ℕ} (o : DirLive n) : Except Err (Fin n → ℝ) :=
  match o.frozen with
  | none => .error .attributeError
  | some a => .ok fun i => a i / ∑ j, a j

/-- distributions_multivariate.py:63-65 and scipy's formula -/
noncomputable def dirVar {n : ℕ} (o : DirLive n) : Except Err (Fin n → ℝ) :=
  match o.frozen with
  | none => .error .attributeError
  | some a => .ok fun i => a i * (∑ j, a j - a i) / ((∑ j, a j) * (∑ j, a j) * (∑ j, a j + 1))

/-- distributions_multivariate.py:42-57 -/
noncomputable def dirSummary {n : ℕ} (o : DirLive n) : Except Err ((Fin n → ℝ) × (Fin n → ℝ)) :=
  match o.frozen with
  | none => .error .valueError
  | some _ => do
    let m ← dirMean o
    let v ← dirVar o
    return (m, fun i => Real.sqrt (v i))

/-- continuous_multivariate.py:421-442 -/
noncomputable def dirSession {n : ℕ} (o : DirLive n) (moves : List (Fin n → ℝ)) : Except Err (DirLive n) :=
  match o.frozen with
  | none => .error .attributeError
  | some a => do
    let start ← dirLive (some a)
    moves.foldlM (fun _ m => dirLive (some m)) start

/-! ## Grids -/

/-- distributions_multivariate.py:123-142: there is no `ppf` (AttributeError) -/
noncomputable def mvEndpoints (lo hi : EReal) : Interval.Support → Except Err (EReal × EReal)
  | .pair l u => .ok (l, u)
  | .restricted => .error .attributeError
  | _ => if lo = ⊥ ∨ hi = ⊤ then .error .attributeError else .ok (lo, hi)

/-- distributions_multivariate.py:152-165, for real ends -/
noncomputable def mvXvals (lo hi : EReal) (s : Interval.Support) : Except Err (List ℝ) := do
  let (l, u) ← mvEndpoints lo hi s
  return Roulette.linspace l.toReal u.toReal 1000

/-- the support of a Dirichlet: continuous_multivariate.py:64 -/
noncomputable def dirSupport : EReal × EReal := ((eps : ℝ), (1 - eps : ℝ))

/-- the support of an MvNormal: continuous_multivariate.py:542 -/
noncomputable def mvSupport : EReal × EReal := (⊥, ⊤)

end Verif.MvObject
