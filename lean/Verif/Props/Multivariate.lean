import Verif.Model.Multivariate
import Verif.Model.Contours
import Mathlib.Analysis.SpecialFunctions.Log.Basic
import Mathlib.Algebra.BigOperators.Field

set_option linter.unusedSimpArgs false

/-!
# C64: multivariate distributions: parameters, mode, coordinates
-/

namespace Verif.Props
open Verif Verif.Multivariate Verif.Contours

/-- the interior of the simplex -/
def OnSimplex {n : ℕ} (x : Fin n → ℝ) : Prop := (∀ i, 0 < x i) ∧ ∑ i, x i = 1

/-- C64: if every concentration exceeds one, the mode of a Dirichlet is a point of the simplex at which the density is
largest, and it is the only one. -/
theorem dirichlet_mode_max {n : ℕ} (alpha : Fin n → ℝ) (hn : 0 < n) (h : ∀ i, 1 < alpha i) :
    ∃ m, dirichletMode alpha = some m ∧ OnSimplex m ∧
      ∀ x, OnSimplex x → simplexKernel alpha x ≤ simplexKernel alpha m ∧
        (simplexKernel alpha x = simplexKernel alpha m → x = m) := by
  have hS : ∑ j, alpha j - n = ∑ j, (alpha j - 1) := by
    rw [Finset.sum_sub_distrib]; simp
  have : Nonempty (Fin n) := ⟨⟨0, hn⟩⟩
  have hpos : 0 < ∑ j, (alpha j - 1) := Finset.sum_pos (fun i _ => by linarith [h i]) Finset.univ_nonempty
  set S := ∑ j, (alpha j - 1) with hSd
  have hm : OnSimplex fun i => (alpha i - 1) / S := by
    refine ⟨fun i => div_pos (by linarith [h i]) hpos, ?_⟩
    rw [← Finset.sum_div, div_self hpos.ne']
  refine ⟨fun i => (alpha i - 1) / S, ?_, hm, ?_⟩
  · unfold dirichletMode
    rw [if_pos h, hS]
  · intro x hx
    have hk : ∀ y : Fin n → ℝ, OnSimplex y → simplexKernel alpha y = Real.exp (∑ i, (alpha i - 1) * Real.log (y i)) := by
      intro y hy
      unfold simplexKernel
      rw [Real.exp_sum]
      apply Finset.prod_congr rfl
      intro i _
      rw [Real.rpow_def_of_pos (hy.1 i), mul_comm]
    have hterm : ∀ i, (alpha i - 1) * Real.log (x i) ≤
        (alpha i - 1) * Real.log ((alpha i - 1) / S) + (S * x i - (alpha i - 1)) := by
      intro i
      have ha : 0 < alpha i - 1 := by linarith [h i]
      have hr : 0 < x i / ((alpha i - 1) / S) := div_pos (hx.1 i) (div_pos ha hpos)
      have h1 := Real.log_le_sub_one_of_pos hr
      rw [Real.log_div (hx.1 i).ne' (div_pos ha hpos).ne'] at h1
      have h2 := mul_le_mul_of_nonneg_left h1 ha.le
      have h3 : (alpha i - 1) * (x i / ((alpha i - 1) / S) - 1) = S * x i - (alpha i - 1) := by
        field_simp
      linarith
    have hzero : ∑ i, (S * x i - (alpha i - 1)) = 0 := by
      rw [Finset.sum_sub_distrib, ← Finset.mul_sum, hx.2]; simp [hSd]
    have hsum := Finset.sum_le_sum fun i (_ : i ∈ Finset.univ) => hterm i
    rw [Finset.sum_add_distrib, hzero, add_zero] at hsum
    rw [hk x hx, hk _ hm]
    refine ⟨Real.exp_le_exp.2 hsum, ?_⟩
    intro heq
    have heq := Real.exp_injective heq
    funext i
    by_contra hne
    have hlt : (alpha i - 1) * Real.log (x i) <
        (alpha i - 1) * Real.log ((alpha i - 1) / S) + (S * x i - (alpha i - 1)) := by
      have ha : 0 < alpha i - 1 := by linarith [h i]
      have hr : 0 < x i / ((alpha i - 1) / S) := div_pos (hx.1 i) (div_pos ha hpos)
      have hr1 : x i / ((alpha i - 1) / S) ≠ 1 := by
        intro h1
        rw [div_eq_one_iff_eq (div_pos ha hpos).ne'] at h1
        exact hne h1
      have h1 := Real.log_lt_sub_one_of_pos hr hr1
      rw [Real.log_div (hx.1 i).ne' (div_pos ha hpos).ne'] at h1
      have h2 := mul_lt_mul_of_pos_left h1 ha
      have h3 : (alpha i - 1) * (x i / ((alpha i - 1) / S) - 1) = S * x i - (alpha i - 1) := by
        field_simp
      linarith
    have := Finset.sum_lt_sum (fun j (_ : j ∈ Finset.univ) => hterm j) ⟨i, Finset.mem_univ i, hlt⟩
    rw [Finset.sum_add_distrib, hzero, add_zero] at this
    exact absurd heq (ne_of_lt this)

/-- C64: otherwise there is no mode -/
theorem dirichlet_mode_none {n : ℕ} (alpha : Fin n → ℝ) (i : Fin n) (h : alpha i ≤ 1) : dirichletMode alpha = none := by
  unfold dirichletMode
  rw [if_neg]
  intro hc
  linarith [hc i]

example : ∀ i, 1 < (![2, 3, 1.5] : Fin 3 → ℝ) i := by
  intro i; fin_cases i <;> norm_num

/-- C64: the Beta drawn for one coordinate of a Dirichlet has the mean and variance of that coordinate; in particular
the means drawn add up to one. -/
theorem dirichlet_marginal_moments {n : ℕ} (alpha : Fin n → ℝ) (hn : 0 < n) (h : ∀ i, 0 < alpha i) (i : Fin n) :
    let (a, b) := dirichletMarginal alpha i
    a / (a + b) = alpha i / ∑ j, alpha j ∧ a * b / ((a + b) ^ 2 * (a + b + 1)) =
      (alpha i / ∑ j, alpha j) * (1 - alpha i / ∑ j, alpha j) / (∑ j, alpha j + 1) := by
  have : Nonempty (Fin n) := ⟨⟨0, hn⟩⟩
  have hpos : 0 < ∑ j, alpha j := Finset.sum_pos (fun i _ => h i) Finset.univ_nonempty
  simp only [dirichletMarginal]
  constructor
  · congr 1; ring
  · have e : alpha i + (∑ j, alpha j - alpha i) = ∑ j, alpha j := by ring
    rw [e]
    field_simp

theorem dirichlet_marginal_means {n : ℕ} (alpha : Fin n → ℝ) (hn : 0 < n) (h : ∀ i, 0 < alpha i) :
    ∑ i, (dirichletMarginal alpha i).1 / ((dirichletMarginal alpha i).1 + (dirichletMarginal alpha i).2) = 1 := by
  have : Nonempty (Fin n) := ⟨⟨0, hn⟩⟩
  have hpos : 0 < ∑ j, alpha j := Finset.sum_pos (fun i _ => h i) Finset.univ_nonempty
  have e : ∀ i, (dirichletMarginal alpha i).1 / ((dirichletMarginal alpha i).1 + (dirichletMarginal alpha i).2) =
      alpha i / ∑ j, alpha j := by
    intro i
    exact (dirichlet_marginal_moments alpha hn h i).1
  simp only [e]
  rw [← Finset.sum_div, div_self hpos.ne']

/-! ### MvNormal -/

/-- C64: built from a covariance matrix or from its inverse, an MvNormal is the same distribution: same mean, same
covariance, same precision, inverse to each other; and it reports the parameter it was given. -/
theorem mvnormal_two_ways {n : ℕ} (mu : Fin n → ℝ) (cov tau : Matrix (Fin n) (Fin n) ℝ) (h : cov * tau = 1) :
    ∃ o1 o2, mvNormal (some mu) (some cov) none = .ok o1 ∧ mvNormal (some mu) none (some tau) = .ok o2 ∧
      o1.mu = some mu ∧ o2.mu = some mu ∧ o1.cov = some cov ∧ o2.cov = some cov ∧
      o1.tau = some tau ∧ o2.tau = some tau ∧
      o1.second = "cov" ∧ o1.secondValue = some cov ∧ o2.second = "tau" ∧ o2.secondValue = some tau := by
  have h' : tau * cov = 1 := mul_eq_one_comm.1 h
  have hc : cov.det ≠ 0 := by
    intro h0
    have := congrArg Matrix.det h
    rw [Matrix.det_mul, h0] at this; simp at this
  have ht : tau.det ≠ 0 := by
    intro h0
    have := congrArg Matrix.det h
    rw [Matrix.det_mul, h0] at this; simp at this
  have i1 : npInv cov = .ok tau := by
    unfold npInv; rw [if_neg hc, Matrix.inv_eq_right_inv h]
  have i2 : npInv tau = .ok cov := by
    unfold npInv; rw [if_neg ht, Matrix.inv_eq_right_inv h']
  refine ⟨⟨some mu, some cov, some tau, "cov", some cov⟩, ⟨some mu, some cov, some tau, "tau", some tau⟩, ?_, ?_,
    rfl, rfl, rfl, rfl, rfl, rfl, rfl, rfl, rfl, rfl⟩
  · simp [mvNormal, mvUpdate, i1]
  · simp [mvNormal, mvUpdate, i1, i2]

/-- C64: without a mean nothing is reported, but the matrix given is kept, the covariance being computed from the
precision (and a singular precision refused); giving the mean later completes the distribution. -/
theorem mvnormal_no_mean {n : ℕ} (cov tau : Matrix (Fin n) (Fin n) ℝ) (h : cov * tau = 1) (mu : Fin n → ℝ) :
    ∃ o1 o2, mvNormal none (some cov) none = .ok o1 ∧ mvNormal none none (some tau) = .ok o2 ∧
      o1.secondValue = none ∧ o2.secondValue = none ∧ o1.mu = none ∧ o2.mu = none ∧
      o1.cov = some cov ∧ o1.tau = none ∧ o2.cov = some cov ∧ o2.tau = some tau ∧
      mvUpdate o1 mu cov = mvNormal (some mu) (some cov) none ∧
      mvUpdate o2 mu cov = mvNormal (some mu) none (some tau) := by
  have h' : tau * cov = 1 := mul_eq_one_comm.1 h
  have hc : cov.det ≠ 0 := by
    intro h0
    have := congrArg Matrix.det h
    rw [Matrix.det_mul, h0] at this; simp at this
  have ht : tau.det ≠ 0 := by
    intro h0
    have := congrArg Matrix.det h
    rw [Matrix.det_mul, h0] at this; simp at this
  have i1 : npInv cov = .ok tau := by
    unfold npInv; rw [if_neg hc, Matrix.inv_eq_right_inv h]
  have i2 : npInv tau = .ok cov := by
    unfold npInv; rw [if_neg ht, Matrix.inv_eq_right_inv h']
  refine ⟨⟨none, some cov, none, "cov", none⟩, ⟨none, some cov, some tau, "tau", none⟩, ?_, ?_,
    rfl, rfl, rfl, rfl, rfl, rfl, rfl, rfl, ?_, ?_⟩
  · simp [mvNormal]
  · simp [mvNormal, i2]
  · simp [mvNormal, mvUpdate, i1]
  · simp [mvNormal, mvUpdate, i1, i2]

/-- with nothing but a mean, or nothing at all, the object keeps what it was given and waits for a covariance matrix -/
theorem mvnormal_only_mean {n : ℕ} (mu : Option (Fin n → ℝ)) :
    ∃ o, mvNormal mu none none = .ok o ∧ o.mu = mu ∧ o.cov = none ∧ o.tau = none ∧ o.second = "cov" ∧ o.secondValue = none := by
  cases mu <;> exact ⟨_, rfl, rfl, rfl, rfl, rfl, rfl⟩

example : ∃ o, mvNormal (some ![1, 2]) none none = .ok o ∧ o.mu = some ![1, 2] ∧ o.cov = none ∧ o.tau = none ∧ o.second = "cov" ∧
    o.secondValue = none := mvnormal_only_mean _

/-- C64: both matrices together are refused. -/
theorem mvnormal_both {n : ℕ} (mu : Option (Fin n → ℝ)) (cov tau : Matrix (Fin n) (Fin n) ℝ) :
    mvNormal mu (some cov) (some tau) = .error .valueError := rfl

/-- C64, what fails: a singular covariance matrix, which the distribution itself would accept (`allow_singular=True`),
is refused because its inverse is computed first. -/
theorem mvnormal_singular {n : ℕ} (mu : Fin n → ℝ) (cov : Matrix (Fin n) (Fin n) ℝ) (h : cov.det = 0) :
    mvNormal (some mu) (some cov) none = .error .valueError := by
  simp [mvNormal, mvUpdate, npInv, h]

example : (!![1, 1; 1, 1] : Matrix (Fin 2) (Fin 2) ℝ).det = 0 := by simp [Matrix.det_fin_two]
example : (!![2, 0; 0, 4] : Matrix (Fin 2) (Fin 2) ℝ) * !![1 / 2, 0; 0, 1 / 4] = 1 := by
  ext i j; fin_cases i <;> fin_cases j <;> norm_num [Matrix.mul_apply, Fin.sum_univ_two]

/-- C64: the Normal drawn for coordinate `i` has the mean and the variance of that coordinate. -/
theorem mvnormal_marginal {n : ℕ} (mu : Fin n → ℝ) (cov : Matrix (Fin n) (Fin n) ℝ) (i : Fin n) (h : 0 ≤ cov i i) :
    (mvMarginal mu cov i).1 = mu i ∧ (mvMarginal mu cov i).2 ^ 2 = cov i i ∧ 0 ≤ (mvMarginal mu cov i).2 :=
  ⟨rfl, Real.sq_sqrt h, Real.sqrt_nonneg _⟩

/-! ### coordinates on the triangle -/

/-- the point with barycentric coordinates `w` -/
noncomputable def atBary (w : Fin 3 → ℝ) : ℝ × ℝ :=
  (∑ i, w i * (corner i).1, ∑ i, w i * (corner i).2)

/-- C64: a point of the triangle is converted to its barycentric coordinates, cut to `[tol, 1 - tol]`. -/
theorem bary_exact (w : Fin 3 → ℝ) (hw : ∑ i, w i = 1) (tol : ℝ) (i : Fin 3) :
    xy2bc (atBary w) tol i = min (1 - tol) (max (w i) tol) := by
  have hs : Real.sqrt 0.75 * Real.sqrt 0.75 = 0.75 := Real.mul_self_sqrt (by norm_num)
  have key : bary (atBary w) i = w i := by
    rw [Fin.sum_univ_three] at hw
    unfold bary atBary sideMid corner
    rw [div_eq_iff (by norm_num)]
    have h0 : w 0 = 1 - w 1 - w 2 := by linarith
    generalize Real.sqrt 0.75 = r at hs
    have hs' : r ^ 2 = 3 / 4 := by rw [sq, hs]; norm_num
    fin_cases i <;> simp [Fin.sum_univ_three, h0] <;> ring_nf <;> rw [hs'] <;> ring
  unfold xy2bc
  rw [key]

theorem bary_inside (w : Fin 3 → ℝ) (hw : ∑ i, w i = 1) (tol : ℝ) (h : ∀ i, tol ≤ w i ∧ w i ≤ 1 - tol) :
    xy2bc (atBary w) tol = w := by
  funext i
  rw [bary_exact w hw, max_eq_left (h i).1, min_eq_right (h i).2]

/-- C64, what fails: after the cut the coordinates of a corner add up to more than one, so the density drawn there is that
of a point off the simplex. -/
theorem bary_corner_sum (tol : ℝ) (h : 0 < tol) (h2 : tol < 1 / 2) (k : Fin 3) :
    ∑ i, xy2bc (corner k) tol i = 1 + tol := by
  have hk : corner k = atBary (fun i => if i = k then 1 else 0) := by
    unfold atBary; simp [Prod.ext_iff]
  rw [hk]
  simp only [bary_exact _ (by simp : ∑ i, (if i = k then (1 : ℝ) else 0) = 1)]
  rw [Fin.sum_univ_three]
  have e0 : min (1 - tol) (max (0 : ℝ) tol) = tol := by rw [max_eq_right h.le, min_eq_right (by linarith)]
  have e1 : min (1 - tol) (max (1 : ℝ) tol) = 1 - tol := by rw [max_eq_left (by linarith), min_eq_left (by linarith)]
  fin_cases k <;> simp [e0, e1] <;> ring

/-! ### panels -/

/-- C64: the grid has room for every panel and no empty line. -/
theorem cols_rows_fit (n : ℕ) (h : 0 < n) :
    n ≤ (colsRows n).1 * (colsRows n).2 ∧ (colsRows n).1 * ((colsRows n).2 - 1) < n ∧ (colsRows n).1 ≤ 3 := by
  unfold colsRows
  split_ifs with h3
  · refine ⟨?_, ?_, ?_⟩ <;> dsimp only <;> omega
  · refine ⟨?_, ?_, ?_⟩ <;> dsimp only <;> omega

/-- C64: up to three panels are stacked, more are put three abreast. -/
theorem cols_rows_shape (n : ℕ) : (n ≤ 3 → colsRows n = (1, n)) ∧ (3 < n → (colsRows n).1 = 3) := by
  unfold colsRows
  exact ⟨fun h => if_pos h, fun h => by rw [if_neg (by omega : ¬ n ≤ 3)]⟩

end Verif.Props
