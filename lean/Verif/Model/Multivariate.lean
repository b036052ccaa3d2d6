import Verif.Basics
import Mathlib.LinearAlgebra.Matrix.NonsingularInverse
import Mathlib.Analysis.SpecialFunctions.Pow.Real

/-!
# Dirichlet and MvNormal: parameters, mode and marginals

distributions/continuous_multivariate.py and internal/plot_helper_multivariate.py.  Vectors have a fixed length `n`,
matrices are square of that size; a wrong shape is not modelled.
-/

namespace Verif.Multivariate
open Verif

/-! ## Dirichlet -/

/-- continuous_multivariate.py:89-94 -/
noncomputable def dirichletMode {n : ℕ} (alpha : Fin n → ℝ) : Option (Fin n → ℝ) :=
  open Classical in
  if ∀ i, alpha i > 1 then some fun i => (alpha i - 1) / (∑ j, alpha j - n) else none

/-- plot_helper_multivariate.py:122-133: the two parameters of the Beta drawn for coordinate `i` -/
noncomputable def dirichletMarginal {n : ℕ} (alpha : Fin n → ℝ) (i : Fin n) : ℝ × ℝ :=
  (alpha i, ∑ j, alpha j - alpha i)

/-- plot_helper_multivariate.py:66-68: the unnormalised density drawn on the simplex -/
noncomputable def simplexKernel {n : ℕ} (alpha x : Fin n → ℝ) : ℝ := ∏ i, x i ^ (alpha i - 1)

/-! ## MvNormal -/

/-- `np.linalg.inv`: LinAlgError, a ValueError, for a singular matrix -/
noncomputable def npInv {n : ℕ} (m : Matrix (Fin n) (Fin n) ℝ) : Except Err (Matrix (Fin n) (Fin n) ℝ) :=
  if m.det = 0 then .error .valueError else .ok m⁻¹

structure MvObj (n : ℕ) where
  mu : Option (Fin n → ℝ)
  cov : Option (Matrix (Fin n) (Fin n) ℝ)
  tau : Option (Matrix (Fin n) (Fin n) ℝ)
  /-- name of the second parameter -/
  second : String
  /-- second entry of `params`, once they are set -/
  secondValue : Option (Matrix (Fin n) (Fin n) ℝ)

/-- continuous_multivariate.py:569-579 -/
noncomputable def mvUpdate {n : ℕ} (o : MvObj n) (mu : Fin n → ℝ) (cov : Matrix (Fin n) (Fin n) ℝ) :
    Except Err (MvObj n) := do
  let tau ← npInv cov
  return { o with mu := some mu, cov := some cov, tau := some tau,
                  secondValue := some (if o.second = "cov" then cov else tau) }

/-- continuous_multivariate.py:545-561 -/
noncomputable def mvNormal {n : ℕ} (mu : Option (Fin n → ℝ)) (cov tau : Option (Matrix (Fin n) (Fin n) ℝ)) :
    Except Err (MvObj n) :=
  match cov, tau with
  | some _, some _ => .error .valueError
  | cov, none =>
    let o : MvObj n := ⟨mu, cov, none, "cov", none⟩
    match mu, cov with
    | some mu, some cov => mvUpdate o mu cov
    | _, _ => .ok o
  | none, some tau => do
    let cov ← npInv tau
    let o : MvObj n := ⟨mu, some cov, some tau, "tau", none⟩
    match mu with
    | some mu => mvUpdate o mu cov
    | none => .ok o

/-- plot_helper_multivariate.py:275-305: mean and standard deviation of the Normal drawn for coordinate `i` -/
noncomputable def mvMarginal {n : ℕ} (mu : Fin n → ℝ) (cov : Matrix (Fin n) (Fin n) ℝ) (i : Fin n) : ℝ × ℝ :=
  (mu i, Real.sqrt (cov i i))

end Verif.Multivariate
