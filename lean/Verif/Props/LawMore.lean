import Verif.Model.MomentsMore
import Verif.Model.Special
import Verif.Lemmas.LawMore
import Verif.Props.Special

/-!
# C112: the laws that moment matching builds for HalfStudentT and ExGaussian

The Gamma function is the one of the code, with its overflow.
-/

namespace Verif.Props
open Verif Verif.MomentsMore Verif.Special

/-- the documented density of HalfStudentT has the documented mean and variance -/
theorem half_student_documented {n s : ℝ} (hn : 2 < n) (hs : 0 < s) :
    Spec.HasMoments (Spec.ofPdf (Spec.halfStudentPdf n s)) (Spec.halfStudentMean n s) (Spec.halfStudentVar n s) :=
  Law.halfStudent hn hs

/-- the documented density of ExGaussian has the documented mean and variance -/
theorem ex_gaussian_documented {s n : ℝ} (hs : 0 < s) (hn : 0 < n) (m : ℝ) :
    Spec.HasMoments (Spec.ofPdf (Spec.exGaussianPdf m s n)) (m + n) (s ^ 2 + n ^ 2) :=
  Law.exGaussian hs hn m

/-- moment matching gives an ExGaussian law that misses the mean by 1e-4 and the variance by 1e-8 -/
theorem ex_gaussian_fit_law (mean : ℝ) {sigma : ℝ} (hs : 0 < sigma) :
    let r := exGaussianMoments mean sigma
    Spec.HasMoments (Spec.ofPdf (Spec.exGaussianPdf r.1 r.2.1 r.2.2)) (mean + 1e-4) (sigma ^ 2 + 1e-8) := by
  have h := Law.exGaussian hs (show (0 : ℝ) < 1e-4 by norm_num) mean
  rw [show ((1e-4 : ℝ)) ^ 2 = 1e-8 by norm_num] at h
  exact h

private theorem chosen_gt (nu : Option ℝ) : 2 < chosenNu nu := by
  unfold chosenNu
  split
  · norm_num
  · split_ifs with h
    · norm_num
    · linarith

/-! ### Bounds for the variance of the law with scale one -/

/-- second moment and squared mean -/
private noncomputable def pA (n : ℝ) : ℝ := n / (n - 2)
private noncomputable def pB (n : ℝ) : ℝ :=
  4 * n / (Real.pi * (n - 1) ^ 2) * (Real.Gamma ((n + 1) / 2) / Real.Gamma (n / 2)) ^ 2

private theorem pB_le {n : ℝ} (hn : 2 < n) : pB n ≤ 2 / Real.pi * pA n := by
  have hp := Real.pi_pos
  have h1 := (Law.gamma_ratio hn).2
  have n1 : 0 < n - 1 := by linarith
  have n2 : 0 < n - 2 := by linarith
  have h2 : pB n ≤ 4 * n / (Real.pi * (n - 1) ^ 2) * (n / 2) := by
    unfold pB; exact mul_le_mul_of_nonneg_left h1 (by positivity)
  refine h2.trans ?_
  unfold pA
  rw [show 4 * n / (Real.pi * (n - 1) ^ 2) * (n / 2) = 2 / Real.pi * (n ^ 2 / (n - 1) ^ 2) by field_simp; ring]
  refine mul_le_mul_of_nonneg_left ?_ (by positivity)
  rw [div_le_div_iff₀ (by positivity) n2]
  nlinarith

private theorem pB_ge {n : ℝ} (hn : 2 < n) : 2 / Real.pi * (1 + 1 / (n - 1)) ≤ pB n := by
  have hp := Real.pi_pos
  have h1 := (Law.gamma_ratio hn).1
  have n1 : 0 < n - 1 := by linarith
  have h2 : 4 * n / (Real.pi * (n - 1) ^ 2) * ((n - 1) / 2) ≤ pB n := by
    unfold pB; exact mul_le_mul_of_nonneg_left h1 (by positivity)
  refine le_trans (le_of_eq ?_) h2
  field_simp
  ring

private theorem pB_nonneg {n : ℝ} (hn : 2 < n) : 0 ≤ pB n := by
  have hp := Real.pi_pos
  unfold pB
  positivity

private theorem pi_frac : 0.6366 ≤ 2 / Real.pi ∧ 2 / Real.pi ≤ 0.6367 := by
  have h1 := Real.pi_gt_d4
  have h2 := Real.pi_lt_d4
  constructor
  · rw [le_div_iff₀ Real.pi_pos]; norm_num at *; linarith
  · rw [div_le_iff₀ Real.pi_pos]; norm_num at *; linarith

private theorem pA_gt {n : ℝ} (hn : 2 < n) : 1 < pA n := by
  unfold pA
  rw [lt_div_iff₀ (by linarith)]
  linarith

private theorem pB_frac {n : ℝ} (hn : 2 < n) : pB n ≤ 1.76 * (pA n - pB n) := by
  have h1 := pB_le hn
  have h2 := pi_frac.2
  have h3 := pA_gt hn
  nlinarith

private theorem var_of {n s : ℝ} : Spec.halfStudentVar n s = s ^ 2 * (pA n - pB n) := rfl

/-! ### The overflow -/

private theorem not_overflow {z : ℝ} (h1 : 1 ≤ z) (h2 : z ≤ 140) : gammaFinite z = some (gamma z) := by
  unfold gammaFinite
  rw [if_pos]
  have hp := Real.pi_lt_d2
  have h3 : Real.sqrt (2 * Real.pi) ≤ 3 := Real.sqrt_le_iff.2 ⟨by norm_num, by norm_num at *; linarith⟩
  have h4 : (z - 1 + 7.5 : ℝ) ^ (z - 1 + 0.5) ≤ 147 ^ (140 : ℕ) := by
    calc (z - 1 + 7.5 : ℝ) ^ (z - 1 + 0.5) ≤ 147 ^ (z - 1 + 0.5) :=
          Real.rpow_le_rpow (by norm_num; linarith) (by norm_num; linarith) (by norm_num; linarith)
      _ ≤ 147 ^ ((140 : ℕ) : ℝ) := Real.rpow_le_rpow_of_exponent_le (by norm_num) (by norm_num; linarith)
      _ = _ := Real.rpow_natCast _ _
  calc Real.sqrt (2 * Real.pi) * (z - 1 + 7.5 : ℝ) ^ (z - 1 + 0.5) ≤ 3 * 147 ^ (140 : ℕ) :=
        mul_le_mul h3 h4 (Real.rpow_nonneg (by norm_num; linarith) _) (by norm_num)
    _ < (2 ^ 256) ^ 4 := by norm_num
    _ = 2 ^ 1024 := by rw [← pow_mul]

private theorem overflow {z : ℝ} (h : 150 ≤ z) : gammaFinite z = none := by
  unfold gammaFinite
  rw [if_neg]
  rw [not_lt]
  have hp := Real.pi_gt_three
  have h3 : 1 ≤ Real.sqrt (2 * Real.pi) := Real.one_le_sqrt.2 (by linarith)
  have h4 : (156 : ℝ) ^ (149 : ℕ) ≤ (z - 1 + 7.5 : ℝ) ^ (z - 1 + 0.5) := by
    calc (156 : ℝ) ^ (149 : ℕ) = 156 ^ ((149 : ℕ) : ℝ) := (Real.rpow_natCast _ _).symm
      _ ≤ 156 ^ (z - 1 + 0.5) := Real.rpow_le_rpow_of_exponent_le (by norm_num) (by norm_num; linarith)
      _ ≤ _ := Real.rpow_le_rpow (by norm_num) (by norm_num; linarith) (by norm_num; linarith)
  calc (2 : ℝ) ^ 1024 = (2 ^ 256) ^ 4 := by rw [← pow_mul]
    _ ≤ 1 * 156 ^ (149 : ℕ) := by norm_num
    _ ≤ _ := mul_le_mul h3 h4 (by norm_num) (by positivity)

/-! ### The fit -/

private theorem near_one {g G : ℝ} (hG : 0 < G) (h : |g - G| ≤ 5e-13 * G) : ∃ a, g = G * (1 + a) ∧ |a| ≤ 5e-13 := by
  refine ⟨(g - G) / G, by field_simp; ring, ?_⟩
  rw [abs_div, abs_of_pos hG, div_le_iff₀ hG]
  exact h

private theorem ratio_near {a b : ℝ} (ha : |a| ≤ 5e-13) (hb : |b| ≤ 5e-13) : |((1 + a) / (1 + b)) ^ 2 - 1| ≤ 2.1e-12 := by
  obtain ⟨a1, a2⟩ := abs_le.1 ha
  obtain ⟨b1, b2⟩ := abs_le.1 hb
  have hb0 : 0 < 1 + b := by norm_num at *; linarith
  set d := (a - b) / (1 + b) with hd
  have e : (1 + a) / (1 + b) = 1 + d := by rw [hd]; field_simp; ring
  have hd1 : |d| ≤ 1.01e-12 := by
    rw [hd, abs_div, abs_of_pos hb0, div_le_iff₀ hb0, abs_le]
    constructor <;> norm_num at * <;> nlinarith
  obtain ⟨d1, d2⟩ := abs_le.1 hd1
  rw [e, abs_le]
  constructor <;> norm_num at * <;> nlinarith

/-- the fitted variance where both Gamma values are finite -/
private theorem fit_finite {n sigma : ℝ} (hn : 2 < n) (hs : 0 < sigma) :
    0 < Real.sqrt (sigma ^ 2 / (n / (n - 2) - 4 * n / (Real.pi * (n - 1) ^ 2) * (gamma ((n + 1) / 2) / gamma (n / 2)) ^ 2)) ∧
    |Spec.halfStudentVar n
      (Real.sqrt (sigma ^ 2 / (n / (n - 2) - 4 * n / (Real.pi * (n - 1) ^ 2) * (gamma ((n + 1) / 2) / gamma (n / 2)) ^ 2)))
      - sigma ^ 2| ≤ 4e-12 * sigma ^ 2 := by
  have hG := Real.Gamma_pos_of_pos (show 0 < (n + 1) / 2 by linarith)
  have hH := Real.Gamma_pos_of_pos (show 0 < n / 2 by linarith)
  obtain ⟨a, ea, ha⟩ := near_one hG (gamma_accuracy (show 0 < (n + 1) / 2 by linarith))
  obtain ⟨b, eb, hb⟩ := near_one hH (gamma_accuracy (show 0 < n / 2 by linarith))
  have hr := ratio_near ha hb
  set rho := ((1 + a) / (1 + b)) ^ 2 with hrho
  have e : n / (n - 2) - 4 * n / (Real.pi * (n - 1) ^ 2) * (gamma ((n + 1) / 2) / gamma (n / 2)) ^ 2 = pA n - pB n * rho := by
    rw [ea, eb, mul_div_mul_comm (Real.Gamma ((n + 1) / 2)), mul_pow (Real.Gamma ((n + 1) / 2) / _), ← hrho]
    unfold pA pB
    ring
  rw [e]
  have h1 := pB_frac hn
  have h2 := pB_nonneg hn
  have h3 := pB_le hn
  have h4 := pA_gt hn
  have h5 := pi_frac.2
  have hD : 0 < pA n - pB n := by nlinarith
  obtain ⟨r1, r2⟩ := abs_le.1 hr
  have hdiff : |pA n - pB n - (pA n - pB n * rho)| ≤ 3.7e-12 * (pA n - pB n) := by
    rw [show pA n - pB n - (pA n - pB n * rho) = pB n * (rho - 1) by ring, abs_mul, abs_of_nonneg h2]
    calc pB n * |rho - 1| ≤ 1.76 * (pA n - pB n) * 2.1e-12 := mul_le_mul h1 hr (abs_nonneg _) (by positivity)
      _ ≤ _ := by norm_num at *; nlinarith
  obtain ⟨d1, d2⟩ := abs_le.1 hdiff
  have hD' : 0 < pA n - pB n * rho := by norm_num at *; nlinarith
  refine ⟨Real.sqrt_pos.2 (by positivity), ?_⟩
  rw [var_of, Real.sq_sqrt (by positivity)]
  have e2 : sigma ^ 2 / (pA n - pB n * rho) * (pA n - pB n) - sigma ^ 2 =
      sigma ^ 2 * ((pA n - pB n - (pA n - pB n * rho)) / (pA n - pB n * rho)) := by
    field_simp
  rw [e2, abs_mul, abs_of_pos (by positivity : 0 < sigma ^ 2), mul_comm]
  refine mul_le_mul_of_nonneg_right ?_ (by positivity)
  rw [abs_div, abs_of_pos hD', div_le_iff₀ hD']
  refine hdiff.trans ?_
  norm_num at *
  nlinarith

private theorem fit_overflow {n sigma : ℝ} (hn : 279 < n) (hs : 0 < sigma) :
    0 < sigma / Real.sqrt (1 - 2 / Real.pi) ∧
    2 / (n - 2) * sigma ^ 2 ≤ Spec.halfStudentVar n (sigma / Real.sqrt (1 - 2 / Real.pi)) - sigma ^ 2 ∧
    Spec.halfStudentVar n (sigma / Real.sqrt (1 - 2 / Real.pi)) - sigma ^ 2 ≤ 4 / (n - 2) * sigma ^ 2 := by
  obtain ⟨c1, c2⟩ := pi_frac
  have n2 : 2 < n := by linarith
  have h1 := pB_le n2
  have h2 := pB_ge n2
  have hp : 0 < 1 - 2 / Real.pi := by linarith
  have hn2 : 0 < n - 2 := by linarith
  have hn1 : 0 < n - 1 := by linarith
  refine ⟨div_pos hs (Real.sqrt_pos.2 hp), ?_⟩
  rw [var_of, div_pow, Real.sq_sqrt hp.le]
  have e : sigma ^ 2 / (1 - 2 / Real.pi) * (pA n - pB n) - sigma ^ 2 = ((pA n - pB n) / (1 - 2 / Real.pi) - 1) * sigma ^ 2 := by
    ring
  rw [e]
  have eA : pA n = 1 + 2 / (n - 2) := by unfold pA; field_simp; ring
  generalize 2 / Real.pi = c at *
  constructor
  · refine mul_le_mul_of_nonneg_right ?_ (by positivity)
    rw [le_sub_iff_add_le, le_div_iff₀ hp]
    rw [eA] at h1 ⊢
    linarith
  · refine mul_le_mul_of_nonneg_right ?_ (by positivity)
    rw [sub_le_iff_le_add, div_le_iff₀ hp]
    rw [eA]
    have hr : 0.9 / (n - 2) ≤ 1 / (n - 1) := by
      rw [div_le_div_iff₀ hn2 hn1]; linarith
    have hq : 0 < 1 / (n - 2) := by positivity
    have i1 : 2 / (n - 2) = 2 * (1 / (n - 2)) := by ring
    have i2 : 4 / (n - 2) = 4 * (1 / (n - 2)) := by ring
    have i3 : 0.9 / (n - 2) = 0.9 * (1 / (n - 2)) := by ring
    rw [i1, i2]
    rw [i3] at hr
    nlinarith

/-- Up to 279 degrees of freedom the law has the requested variance, up to the error of the Gamma function. -/
theorem half_student_fit_accuracy (nu : Option ℝ) {sigma : ℝ} (hs : 0 < sigma) :
    let r := halfStudentTMoments gammaFinite nu sigma
    r.1 ≤ 279 → 0 < r.2 ∧ ∃ v, Spec.HasMoments (Spec.ofPdf (Spec.halfStudentPdf r.1 r.2)) (Spec.halfStudentMean r.1 r.2) v ∧
      |v - sigma ^ 2| ≤ 4e-12 * sigma ^ 2 := by
  intro r
  have hn := chosen_gt nu
  have hr1 : r.1 = chosenNu nu := by
    simp only [r]; unfold halfStudentTMoments; dsimp only; split <;> rfl
  rw [hr1]
  intro hle
  have e : r.2 = Real.sqrt (sigma ^ 2 / (chosenNu nu / (chosenNu nu - 2) - 4 * chosenNu nu / (Real.pi * (chosenNu nu - 1) ^ 2) *
      (gamma ((chosenNu nu + 1) / 2) / gamma (chosenNu nu / 2)) ^ 2)) := by
    simp only [r]; unfold halfStudentTMoments; dsimp only
    rw [not_overflow (z := (chosenNu nu + 1) / 2) (by linarith) (by linarith),
      not_overflow (z := chosenNu nu / 2) (by linarith) (by linarith)]
  rw [e]
  obtain ⟨h1, h2⟩ := fit_finite hn hs
  exact ⟨h1, _, Law.halfStudent hn h1, h2⟩

/-- Above, the variance can be off by a few units in the degrees of freedom. -/
theorem half_student_fit_large (nu : Option ℝ) {sigma : ℝ} (hs : 0 < sigma) :
    let r := halfStudentTMoments gammaFinite nu sigma
    279 < r.1 → 0 < r.2 ∧ ∃ v, Spec.HasMoments (Spec.ofPdf (Spec.halfStudentPdf r.1 r.2)) (Spec.halfStudentMean r.1 r.2) v ∧
      |v - sigma ^ 2| ≤ 4 / (r.1 - 2) * sigma ^ 2 := by
  intro r
  have hn := chosen_gt nu
  have hr1 : r.1 = chosenNu nu := by
    simp only [r]; unfold halfStudentTMoments; dsimp only; split <;> rfl
  rw [hr1]
  intro hlt
  obtain ⟨h1, h2⟩ := fit_finite hn hs
  obtain ⟨o1, o2, o3⟩ := fit_overflow hlt hs
  have hn2 : 0 < chosenNu nu - 2 := by linarith
  have hbig : |Spec.halfStudentVar (chosenNu nu) (sigma / Real.sqrt (1 - 2 / Real.pi)) - sigma ^ 2| ≤
      4 / (chosenNu nu - 2) * sigma ^ 2 := by
    rw [abs_of_nonneg (le_trans (by positivity) o2)]
    exact o3
  by_cases hx : chosenNu nu < 300
  · have hsmall : (4e-12 : ℝ) * sigma ^ 2 ≤ 4 / (chosenNu nu - 2) * sigma ^ 2 := by
      refine mul_le_mul_of_nonneg_right ?_ (by positivity)
      rw [le_div_iff₀ hn2]; norm_num; linarith
    unfold r halfStudentTMoments
    dsimp only
    split
    · rename_i g0 g1 e0 e1
      have k0 : g0 = gamma ((chosenNu nu + 1) / 2) := by
        unfold gammaFinite at e0; split_ifs at e0; exact (Option.some.inj e0).symm
      have k1 : g1 = gamma (chosenNu nu / 2) := by
        unfold gammaFinite at e1; split_ifs at e1; exact (Option.some.inj e1).symm
      rw [k0, k1]
      exact ⟨h1, _, Law.halfStudent hn h1, h2.trans hsmall⟩
    · exact ⟨o1, _, Law.halfStudent hn o1, hbig⟩
  · have e : r.2 = sigma / Real.sqrt (1 - 2 / Real.pi) := by
      simp only [r]; unfold halfStudentTMoments; dsimp only
      rw [overflow (z := (chosenNu nu + 1) / 2) (by linarith)]
    rw [e]
    exact ⟨o1, _, Law.halfStudent hn o1, hbig⟩

/-- From 300 degrees of freedom on the variance is always too large. -/
theorem half_student_fit_wrong (nu : Option ℝ) {sigma : ℝ} (hs : 0 < sigma) :
    let r := halfStudentTMoments gammaFinite nu sigma
    300 ≤ r.1 → ∃ v, Spec.HasMoments (Spec.ofPdf (Spec.halfStudentPdf r.1 r.2)) (Spec.halfStudentMean r.1 r.2) v ∧
      2 / (r.1 - 2) * sigma ^ 2 ≤ v - sigma ^ 2 := by
  intro r
  have hn := chosen_gt nu
  have hr1 : r.1 = chosenNu nu := by
    simp only [r]; unfold halfStudentTMoments; dsimp only; split <;> rfl
  rw [hr1]
  intro hle
  have e : r.2 = sigma / Real.sqrt (1 - 2 / Real.pi) := by
    simp only [r]; unfold halfStudentTMoments; dsimp only
    rw [overflow (z := (chosenNu nu + 1) / 2) (by linarith)]
  obtain ⟨o1, o2, o3⟩ := fit_overflow (n := chosenNu nu) (by linarith) hs
  rw [e]
  exact ⟨_, Law.halfStudent hn o1, o2⟩

/-! ### Examples -/

/-- nu = 4, deviation 3 -/
example : let r := halfStudentTMoments gammaFinite (some 4) 3
    ∃ v, Spec.HasMoments (Spec.ofPdf (Spec.halfStudentPdf r.1 r.2)) (Spec.halfStudentMean r.1 r.2) v ∧ |v - 3 ^ 2| ≤ 4e-12 * 3 ^ 2 :=
  (half_student_fit_accuracy (some 4) (by norm_num) (by
    have : chosenNu (some 4) = 4 := by simp only [chosenNu]; norm_num
    unfold halfStudentTMoments; dsimp only; rw [this]; split <;> norm_num)).2

/-- nu = 1000, deviation 1 -/
example : let r := halfStudentTMoments gammaFinite (some 1000) 1
    (∃ v, Spec.HasMoments (Spec.ofPdf (Spec.halfStudentPdf r.1 r.2)) (Spec.halfStudentMean r.1 r.2) v ∧
      |v - 1 ^ 2| ≤ 4 / (r.1 - 2) * 1 ^ 2) ∧
    ∃ v, Spec.HasMoments (Spec.ofPdf (Spec.halfStudentPdf r.1 r.2)) (Spec.halfStudentMean r.1 r.2) v ∧
      2 / (r.1 - 2) * 1 ^ 2 ≤ v - 1 ^ 2 := by
  have : chosenNu (some 1000) = 1000 := by simp only [chosenNu]; norm_num
  exact ⟨(half_student_fit_large (some 1000) one_pos (by
    unfold halfStudentTMoments; dsimp only; rw [this]; split <;> norm_num)).2,
    half_student_fit_wrong (some 1000) one_pos (by
    unfold halfStudentTMoments; dsimp only; rw [this]; split <;> norm_num)⟩

example : Spec.HasMoments (Spec.ofPdf (Spec.halfStudentPdf 3 2)) (Spec.halfStudentMean 3 2) (Spec.halfStudentVar 3 2) :=
  half_student_documented (by norm_num) two_pos

example : Spec.HasMoments (Spec.ofPdf (Spec.exGaussianPdf (-3) 1 4)) (-3 + 4) (1 ^ 2 + 4 ^ 2) :=
  ex_gaussian_documented one_pos (by norm_num) _

end Verif.Props
