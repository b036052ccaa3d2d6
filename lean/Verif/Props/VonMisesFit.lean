import Verif.Props.MleMore
import Verif.Lemmas.BesselRatio

/-!
# C65, continued: the equation for the concentration of VonMises has a solution in the bracket
-/

namespace Verif.Props
open Verif Verif.Mle

/-- the contract of `root_scalar(f, method="brentq", bracket=(a, b))`: equal signs at the ends are refused, otherwise a zero
of a continuous function is found -/
structure Brentq (brentq : (ℝ → ℝ) → ℝ → ℝ → Except Err ℝ) : Prop where
  refuse : ∀ f a b, 0 < f a * f b → brentq f a b = .error .valueError
  find : ∀ f a b, Continuous f → a ≤ b → f a * f b ≤ 0 → ∃ x, a ≤ x ∧ x ≤ b ∧ f x = 0 ∧ brentq f a b = .ok x

/-- the quotient of the Bessel functions -/
noncomputable def besselRatio (k : ℝ) : ℝ := Spec.besselI1 k / Spec.besselI0 k

private theorem tiny_pos : 0 < tiny := by unfold tiny; positivity

private theorem tiny_le : tiny ≤ 1e16 := by
  unfold tiny
  rw [show ((2 : ℝ) ^ (-1022 : ℤ)) = ((2 : ℝ) ^ (1022 : ℕ))⁻¹ by rw [zpow_neg]; norm_cast]
  have : ((2 : ℝ) ^ (1022 : ℕ))⁻¹ ≤ 1 := inv_le_one_of_one_le₀ (one_le_pow₀ (by norm_num))
  refine this.trans (by norm_num)

private theorem root_ok {brentq : (ℝ → ℝ) → ℝ → ℝ → Except Err ℝ} (hB : Brentq brentq) {r k : ℝ}
    (h : kappaRoot brentq besselRatio r = .ok k) : tiny ≤ k ∧ besselRatio k = r := by
  unfold kappaRoot at h
  rcases lt_or_ge 0 ((besselRatio tiny - r) * (besselRatio 1e16 - r)) with h1 | h1
  · rw [hB.refuse (fun kappa => besselRatio kappa - r) _ _ h1] at h
    cases h
  · obtain ⟨x, hx, -, h2, h3⟩ := hB.find (fun kappa => besselRatio kappa - r) tiny 1e16 (Spec.Ratio.cont.sub continuous_const)
      tiny_le h1
    rw [h3] at h
    cases h
    exact ⟨hx, sub_eq_zero.1 h2⟩

private theorem root_exists {brentq : (ℝ → ℝ) → ℝ → ℝ → Except Err ℝ} (hB : Brentq brentq) {r : ℝ}
    (h1 : tiny ≤ r) (h2 : r ≤ 1 - 3e-16) : ∃ k, kappaRoot brentq besselRatio r = .ok k := by
  have a1 : besselRatio tiny ≤ tiny := Spec.Ratio.le_self tiny_pos.le
  have a2 : 1 - 3 / 1e16 ≤ besselRatio 1e16 := Spec.Ratio.ge (by norm_num)
  obtain ⟨x, -, -, -, h3⟩ := hB.find (fun kappa => besselRatio kappa - r) tiny 1e16 (Spec.Ratio.cont.sub continuous_const)
    tiny_le (mul_nonpos_of_nonpos_of_nonneg (by linarith) (by norm_num at *; linarith))
  exact ⟨x, h3⟩

/-- C65: for every sample whose mean direction has a length between the smallest float and 1 - 3e-16 the fit succeeds, and
gives the largest likelihood among all means and all concentrations `≥ 0`. -/
theorem vonmises_fit_succeeds {brentq : (ℝ → ℝ) → ℝ → ℝ → Except Err ℝ} (hB : Brentq brentq) (l : List ℝ)
    (h1 : tiny ≤ resultant l / l.length) (h2 : resultant l / l.length ≤ 1 - 3e-16) :
    ∃ mu k, vonMisesFit (kappaRoot brentq besselRatio) l = .ok (some (mu, k)) ∧ -Real.pi ≤ mu ∧ mu < Real.pi ∧ 0 < k ∧
      ∀ mu' k', 0 ≤ k' → Spec.lik (Spec.vonMisesPdf mu' k') l ≤ Spec.lik (Spec.vonMisesPdf mu k) l := by
  have hl : l ≠ [] := by
    rintro rfl
    simp only [List.length_nil, Nat.cast_zero, div_zero] at h1
    linarith [tiny_pos]
  have hn : (0 : ℝ) < l.length := by exact_mod_cast List.length_pos_iff.2 hl
  have hpos : 0 < resultant l / l.length := lt_of_lt_of_le tiny_pos h1
  have hR : 0 < resultant l := by
    have := mul_pos hpos hn
    rwa [div_mul_cancel₀ _ hn.ne'] at this
  obtain ⟨k, hk⟩ := root_exists hB h1 h2
  obtain ⟨mu, -, -, -, e⟩ := vonmises_value (kappaRoot brentq besselRatio) l hl
  rw [if_pos hpos, hk] at e
  obtain ⟨b1, b2, b3⟩ := vonmises_fit_optimal _ l mu k e hR fun r κ h => (root_ok hB h).2
  exact ⟨mu, k, e, b1, b2, lt_of_lt_of_le tiny_pos (root_ok hB hk).1, b3⟩

private theorem lik_pow {f : ℝ → ℝ} {c : ℝ} (l : List ℝ) (h : ∀ x ∈ l, f x = c) : Spec.lik f l = c ^ l.length := by
  unfold Spec.lik
  rw [List.map_congr_left h]
  simp

/-- For a sample of one direction no concentration is the best. -/
theorem vonmises_one_direction (l : List ℝ) (hl : l ≠ []) (a : ℝ) (ha : ∀ x ∈ l, Real.cos (x - a) = 1) {k k' : ℝ} (hk : k < k') :
    Spec.lik (Spec.vonMisesPdf a k) l < Spec.lik (Spec.vonMisesPdf a k') l := by
  have h0 := Spec.Ratio.pos0 k
  have h0' := Spec.Ratio.pos0 k'
  have hp := Real.pi_pos
  rw [lik_pow (c := Real.exp k / (2 * Real.pi * Spec.besselI0 k)) l (fun x hx => by
      unfold Spec.vonMisesPdf; rw [ha x hx, mul_one]),
    lik_pow (c := Real.exp k' / (2 * Real.pi * Spec.besselI0 k')) l (fun x hx => by
      unfold Spec.vonMisesPdf; rw [ha x hx, mul_one])]
  refine pow_lt_pow_left₀ ?_ (by positivity) (by simpa using hl)
  rw [div_lt_div_iff₀ (by positivity) (by positivity)]
  have ht := besselI0_tangent k' k
  have hr := Spec.Ratio.lt_one k'
  have h1 : Real.exp (k - k') < Real.exp ((k - k') * (Spec.besselI1 k' / Spec.besselI0 k')) := by
    apply Real.exp_lt_exp.2
    nlinarith
  have h2 : Spec.besselI0 k' * Real.exp (k - k') < Spec.besselI0 k :=
    lt_of_lt_of_le (mul_lt_mul_of_pos_left h1 h0') ht
  have h3 : Real.exp k = Real.exp (k - k') * Real.exp k' := by rw [← Real.exp_add]; congr 1; ring
  rw [h3]
  have := Real.exp_pos k'
  have h4 := mul_lt_mul_of_pos_left h2 (show 0 < Real.exp k' * (2 * Real.pi) by positivity)
  nlinarith

/-! ### Examples -/

open Classical in
private noncomputable def exBrentq (f : ℝ → ℝ) (a b : ℝ) : Except Err ℝ :=
  if h : ∃ x, a ≤ x ∧ x ≤ b ∧ f x = 0 then (if 0 < f a * f b then .error .valueError else .ok h.choose)
  else .error .valueError

private theorem exBrentq_ok : Brentq exBrentq where
  refuse f a b h := by
    unfold exBrentq
    split_ifs <;> rfl
  find f a b hf hab h := by
    have hex : ∃ x, a ≤ x ∧ x ≤ b ∧ f x = 0 := by
      have hi := isPreconnected_Icc.intermediate_value₂ (a := a) (b := b) (s := Set.Icc a b)
        (Set.left_mem_Icc.2 hab) (Set.right_mem_Icc.2 hab) hf.continuousOn (continuousOn_const (c := (0 : ℝ)))
      have hi' := isPreconnected_Icc.intermediate_value₂ (a := b) (b := a) (s := Set.Icc a b)
        (Set.right_mem_Icc.2 hab) (Set.left_mem_Icc.2 hab) hf.continuousOn (continuousOn_const (c := (0 : ℝ)))
      rcases mul_nonpos_iff.1 h with ⟨h1, h2⟩ | ⟨h1, h2⟩
      · obtain ⟨x, hx, e⟩ := hi' h2 h1
        exact ⟨x, hx.1, hx.2, e⟩
      · obtain ⟨x, hx, e⟩ := hi h1 h2
        exact ⟨x, hx.1, hx.2, e⟩
    refine ⟨hex.choose, hex.choose_spec.1, hex.choose_spec.2.1, hex.choose_spec.2.2, ?_⟩
    unfold exBrentq
    rw [dif_pos hex, if_neg (not_lt.2 h)]

/-- two directions at a right angle -/
example : ∃ mu k, vonMisesFit (kappaRoot exBrentq besselRatio) [0, Real.pi / 2] = .ok (some (mu, k)) ∧ 0 < k ∧
    ∀ mu' k', 0 ≤ k' → Spec.lik (Spec.vonMisesPdf mu' k') [0, Real.pi / 2] ≤ Spec.lik (Spec.vonMisesPdf mu k) [0, Real.pi / 2] := by
  have e : resultant [0, Real.pi / 2] = Real.sqrt 2 := by
    unfold resultant; simp; norm_num
  have h1 : Real.sqrt 2 ≤ 1.5 := Real.sqrt_le_iff.2 ⟨by norm_num, by norm_num⟩
  have h2 : 1 ≤ Real.sqrt 2 := Real.one_le_sqrt.2 (by norm_num)
  have h3 : tiny ≤ 1 / 2 := by
    unfold tiny
    calc (2 : ℝ) ^ (-1022 : ℤ) ≤ 2 ^ (-1 : ℤ) := zpow_le_zpow_right₀ (by norm_num) (by norm_num)
      _ = 1 / 2 := by norm_num
  obtain ⟨mu, k, a, -, -, b, c⟩ := vonmises_fit_succeeds exBrentq_ok [0, Real.pi / 2]
    (by rw [e]; simp only [List.length_cons, List.length_nil]; norm_num; linarith)
    (by rw [e]; simp only [List.length_cons, List.length_nil]; norm_num at *; linarith)
  exact ⟨mu, k, a, b, c⟩

example : Spec.lik (Spec.vonMisesPdf 1 5) [1, 1, 1 + 2 * Real.pi] < Spec.lik (Spec.vonMisesPdf 1 7) [1, 1, 1 + 2 * Real.pi] :=
  vonmises_one_direction _ (by simp) 1 (by
    intro x hx
    simp only [List.mem_cons, List.not_mem_nil, or_false] at hx
    rcases hx with rfl | rfl | rfl
    · simp
    · simp
    · rw [show 1 + 2 * Real.pi - 1 = 2 * Real.pi by ring, Real.cos_two_pi]) (by norm_num)

end Verif.Props
