import Verif.Lemmas.MlExpFam
import Verif.Lemmas.LawGamma
import Mathlib.Tactic

/-!
# Gamma and Beta as families with two sufficient statistics
-/

namespace Verif.Ml
open Set Filter Topology MeasureTheory Verif.Law

private theorem gamma_low (R : ℝ) (hR : 0 ≤ R) : ∃ m, 0 < m ∧ ∀ a, 0 ≤ a → a ≤ R → m ≤ Real.Gamma (a + 1) := by
  have hc : ContinuousOn (fun a : ℝ => Real.Gamma (a + 1)) (Icc 0 R) := by
    intro a ha
    have h1 : ContinuousAt Real.Gamma (a + 1) :=
      (Real.differentiableAt_Gamma fun m => by have := ha.1; have : (0 : ℝ) ≤ m := Nat.cast_nonneg m; linarith).continuousAt
    have h2 : ContinuousAt (fun a : ℝ => Real.Gamma (a + 1)) a := ContinuousAt.comp (f := fun a : ℝ => a + 1) h1 (by fun_prop)
    exact h2.continuousWithinAt
  obtain ⟨a0, h0, hm⟩ := isCompact_Icc.exists_isMinOn (nonempty_Icc.2 hR) hc
  exact ⟨_, Real.Gamma_pos_of_pos (by linarith [h0.1]), fun a h1 h2 => hm ⟨h1, h2⟩⟩

private theorem gamma_high (R : ℝ) (hR : 0 ≤ R) : ∃ Q, 0 < Q ∧ ∀ a, 0 ≤ a → a ≤ R → Real.Gamma (a + 1) ≤ Q := by
  have hc : ContinuousOn (fun a : ℝ => Real.Gamma (a + 1)) (Icc 0 R) := by
    intro a ha
    have h1 : ContinuousAt Real.Gamma (a + 1) :=
      (Real.differentiableAt_Gamma fun m => by have := ha.1; have : (0 : ℝ) ≤ m := Nat.cast_nonneg m; linarith).continuousAt
    have h2 : ContinuousAt (fun a : ℝ => Real.Gamma (a + 1)) a := ContinuousAt.comp (f := fun a : ℝ => a + 1) h1 (by fun_prop)
    exact h2.continuousWithinAt
  obtain ⟨a0, h0, hm⟩ := isCompact_Icc.exists_isMaxOn (nonempty_Icc.2 hR) hc
  exact ⟨_, Real.Gamma_pos_of_pos (by linarith [h0.1]), fun a h1 h2 => hm ⟨h1, h2⟩⟩

private theorem gamma_cont {a : ℝ} (ha : 0 < a) : ContinuousAt Real.Gamma a :=
  (Real.differentiableAt_Gamma fun m => by have : (0 : ℝ) ≤ m := Nat.cast_nonneg m; linarith).continuousAt

theorem kern_gamma {a b x : ℝ} (hx : 0 < x) :
    kern Real.log (fun x => -x) (fun x => 1 / x) a b x = x ^ (a - 1) * Real.exp (-(b * x)) := by
  unfold kern
  rw [Real.exp_add, Real.rpow_sub_one hx.ne', Real.rpow_def_of_pos hx, mul_comm (Real.log x) a,
    show b * -x = -(b * x) by ring]
  ring

theorem gammaFam : ExpFam (Ioi 0) Real.log (fun x => -x) (fun x => 1 / x) (fun a b => Real.Gamma a / b ^ a) where
  opn := isOpen_Ioi
  c1 := Real.continuousOn_log.mono fun x hx => (ne_of_gt hx)
  c2 := by fun_prop
  cw := continuousOn_const.div continuousOn_id fun x hx => (ne_of_gt hx)
  pos x hx := one_div_pos.2 hx
  int a b ha hb := (gammaInt ha hb).congr measurableSet_Ioi fun x hx => (kern_gamma hx).symm
  indep d e c h := by
    have h1 := h 1 (by simp)
    have h2 := h 2 (by simp)
    have h4 := h 4 (by simp)
    have hl : Real.log 4 = 2 * Real.log 2 := by
      rw [show (4 : ℝ) = 2 ^ 2 by norm_num, Real.log_pow]; norm_num
    rw [Real.log_one] at h1
    rw [hl] at h4
    have hp : 0 < Real.log 2 := Real.log_pos (by norm_num)
    have he : e = 0 := by linarith
    subst he
    refine ⟨?_, rfl⟩
    have : d * Real.log 2 = 0 := by linarith
    exact (mul_eq_zero.1 this).resolve_right hp.ne'
  zpos a b ha hb := div_pos (Real.Gamma_pos_of_pos ha) (Real.rpow_pos_of_pos hb a)
  zcont := by
    intro p hp
    refine ContinuousAt.continuousWithinAt ?_
    refine ContinuousAt.div ?_ ?_ (Real.rpow_pos_of_pos hp.2 _).ne'
    · exact ContinuousAt.comp (f := fun p : ℝ × ℝ => p.1) (gamma_cont hp.1) continuousAt_fst
    · exact continuousAt_snd.rpow continuousAt_fst (Or.inl hp.2.ne')
  blow R M := by
    by_cases hR : R < 0
    · exact ⟨1, one_pos, fun a b ha _ h => absurd h (by linarith)⟩
    obtain ⟨m, hm, hlow⟩ := gamma_low R (not_lt.1 hR)
    set Q := max 1 R ^ R with hQ
    have hQp : 0 < Q := Real.rpow_pos_of_pos (one_pos.trans_le (le_max_left _ _)) _
    have hM : 0 < |M| + 1 := by positivity
    refine ⟨min (m / (Q * (|M| + 1))) (Real.exp (-((|M| + 1) / m))), lt_min (by positivity) (Real.exp_pos _), ?_⟩
    intro a b ha hb haR hbR hor
    have hG : Real.Gamma a / b ^ a = Real.Gamma (a + 1) / (a * b ^ a) := by
      rw [Real.Gamma_add_one ha.ne']
      field_simp
    have hba : 0 < b ^ a := Real.rpow_pos_of_pos hb a
    have hl := hlow a ha.le haR
    have hgoal : |M| + 1 < Real.Gamma a / b ^ a := by
      rw [hG]
      rcases hor with h | h
      · have h1 : a < m / (Q * (|M| + 1)) := h.trans_le (min_le_left _ _)
        have h2 : b ^ a ≤ Q := by
          have h3 : b ^ a ≤ (max 1 R) ^ a := Real.rpow_le_rpow hb.le (hbR.trans (le_max_right _ _)) ha.le
          exact h3.trans (Real.rpow_le_rpow_of_exponent_le (le_max_left _ _) haR)
        rw [lt_div_iff₀ (by positivity)] at h1 ⊢
        have h4 : a * b ^ a ≤ a * Q := mul_le_mul_of_nonneg_left h2 ha.le
        nlinarith
      · have h1 : b < Real.exp (-((|M| + 1) / m)) := h.trans_le (min_le_right _ _)
        have h2 : (|M| + 1) / m < -Real.log b := by
          have := Real.log_lt_log hb h1
          rw [Real.log_exp] at this
          linarith
        have h3 : -Real.log b * (a * b ^ a) ≤ 1 := by
          have h5 : a * -Real.log b + 1 ≤ Real.exp (a * -Real.log b) := Real.add_one_le_exp _
          have h6 : b ^ a * Real.exp (a * -Real.log b) = 1 := by
            rw [Real.rpow_def_of_pos hb, ← Real.exp_add]
            rw [show Real.log b * a + a * -Real.log b = 0 by ring, Real.exp_zero]
          nlinarith
        rw [lt_div_iff₀ (by positivity)]
        rw [div_lt_iff₀ hm] at h2
        have h7 : (|M| + 1) * (a * b ^ a) < -Real.log b * m * (a * b ^ a) := mul_lt_mul_of_pos_right h2 (by positivity)
        nlinarith
    linarith [le_abs_self M]

theorem kern_beta {a b x : ℝ} (hx : 0 < x) (hx1 : x < 1) :
    kern Real.log (fun x => Real.log (1 - x)) (fun x => 1 / (x * (1 - x))) a b x = x ^ (a - 1) * (1 - x) ^ (b - 1) := by
  have h1 : 0 < 1 - x := by linarith
  unfold kern
  rw [Real.exp_add, Real.rpow_sub_one hx.ne', Real.rpow_sub_one h1.ne', Real.rpow_def_of_pos hx, Real.rpow_def_of_pos h1,
    mul_comm (Real.log x) a, mul_comm (Real.log (1 - x)) b]
  field_simp

theorem betaFam : ExpFam (Ioo 0 1) Real.log (fun x => Real.log (1 - x)) (fun x => 1 / (x * (1 - x)))
    (fun a b => ProbabilityTheory.beta a b) where
  opn := isOpen_Ioo
  c1 := Real.continuousOn_log.mono fun x hx => (ne_of_gt hx.1)
  c2 := ContinuousOn.log (by fun_prop) fun x hx => by have := hx.2; exact (sub_pos.2 this).ne'
  cw := continuousOn_const.div (by fun_prop) fun x hx => (mul_pos hx.1 (sub_pos.2 hx.2)).ne'
  pos x hx := one_div_pos.2 (mul_pos hx.1 (sub_pos.2 hx.2))
  int a b ha hb := (betaHIs ha hb).congr measurableSet_Ioo fun x hx => (kern_beta hx.1 hx.2).symm
  indep d e c h := by
    have h1 := h (1 / 2) ⟨by norm_num, by norm_num⟩
    have h2 := h (1 / 4) ⟨by norm_num, by norm_num⟩
    have h3 := h (3 / 4) ⟨by norm_num, by norm_num⟩
    have e2 : Real.log (1 / 2) = -Real.log 2 := by rw [one_div, Real.log_inv]
    have e4 : Real.log (1 / 4) = -(2 * Real.log 2) := by
      rw [one_div, Real.log_inv, show (4 : ℝ) = 2 ^ 2 by norm_num, Real.log_pow]; norm_num
    have e3 : Real.log (3 / 4) = Real.log 3 - 2 * Real.log 2 := by
      rw [Real.log_div (by norm_num) (by norm_num), show (4 : ℝ) = 2 ^ 2 by norm_num, Real.log_pow]; norm_num
    rw [show (1 : ℝ) - 1 / 2 = 1 / 2 by norm_num, e2] at h1
    rw [show (1 : ℝ) - 1 / 4 = 3 / 4 by norm_num, e3, e4] at h2
    rw [show (1 : ℝ) - 3 / 4 = 1 / 4 by norm_num, e3, e4] at h3
    have hp : 0 < Real.log 3 := Real.log_pos (by norm_num)
    have hlt : Real.log 3 < 2 * Real.log 2 := by
      have : 2 * Real.log 2 = Real.log 4 := by rw [show (4 : ℝ) = 2 ^ 2 by norm_num, Real.log_pow]; norm_num
      rw [this]
      exact Real.log_lt_log (by norm_num) (by norm_num)
    have hde : d = e := by
      have : (d - e) * Real.log 3 = 0 := by linarith
      exact sub_eq_zero.1 ((mul_eq_zero.1 this).resolve_right hp.ne')
    subst hde
    have : d * (Real.log 3 - 2 * Real.log 2) = 0 := by linarith
    have hd := (mul_eq_zero.1 this).resolve_right (by linarith)
    exact ⟨hd, hd⟩
  zpos a b ha hb := ProbabilityTheory.beta_pos ha hb
  zcont := by
    intro p hp
    have hab : 0 < p.1 + p.2 := add_pos hp.1 hp.2
    refine ContinuousAt.continuousWithinAt ?_
    unfold ProbabilityTheory.beta
    refine ContinuousAt.div (ContinuousAt.mul ?_ ?_) ?_ (Real.Gamma_pos_of_pos hab).ne'
    · exact ContinuousAt.comp (f := fun p : ℝ × ℝ => p.1) (gamma_cont hp.1) continuousAt_fst
    · exact ContinuousAt.comp (f := fun p : ℝ × ℝ => p.2) (gamma_cont hp.2) continuousAt_snd
    · exact ContinuousAt.comp (f := fun p : ℝ × ℝ => p.1 + p.2) (gamma_cont hab) (by fun_prop)
  blow R M := by
    by_cases hR : R < 0
    · exact ⟨1, one_pos, fun a b ha _ h => absurd h (by linarith)⟩
    have hR := not_lt.1 hR
    obtain ⟨m, hm, hlow⟩ := gamma_low R hR
    obtain ⟨Q, hQ, hhigh⟩ := gamma_high (2 * R) (by linarith)
    have hM : 0 < |M| + 1 := by positivity
    refine ⟨m ^ 2 / (Q * (|M| + 1)), by positivity, ?_⟩
    intro a b ha hb haR hbR hor
    have h1 := hlow a ha.le haR
    have h2 := hlow b hb.le hbR
    have h3 := hhigh (a + b) (by linarith) (by linarith)
    have hG : ProbabilityTheory.beta a b = Real.Gamma (a + 1) * Real.Gamma (b + 1) / Real.Gamma (a + b + 1) * (1 / a + 1 / b) := by
      unfold ProbabilityTheory.beta
      have hg := Real.Gamma_pos_of_pos (add_pos ha hb)
      rw [Real.Gamma_add_one ha.ne', Real.Gamma_add_one hb.ne', Real.Gamma_add_one (add_pos ha hb).ne']
      field_simp
      ring
    have h4 : m ^ 2 / Q ≤ Real.Gamma (a + 1) * Real.Gamma (b + 1) / Real.Gamma (a + b + 1) := by
      have hg : 0 < Real.Gamma (a + b + 1) := Real.Gamma_pos_of_pos (by linarith)
      rw [div_le_div_iff₀ hQ hg]
      have h5 : m * m ≤ Real.Gamma (a + 1) * Real.Gamma (b + 1) := mul_le_mul h1 h2 hm.le (hm.le.trans h1)
      have h6 : 0 ≤ Real.Gamma (a + 1) * Real.Gamma (b + 1) := by positivity
      nlinarith
    have key : ∀ c, 0 < c → c < m ^ 2 / (Q * (|M| + 1)) → |M| + 1 < m ^ 2 / Q * (1 / c) := by
      intro c hc h
      rw [lt_div_iff₀ (by positivity)] at h
      rw [← div_eq_mul_one_div, lt_div_iff₀ hc, lt_div_iff₀ hQ]
      linarith
    have h7 : |M| + 1 < m ^ 2 / Q * (1 / a + 1 / b) := by
      have ha1 : 0 < m ^ 2 / Q * (1 / a) := by positivity
      have hb1 : 0 < m ^ 2 / Q * (1 / b) := by positivity
      rcases hor with h | h
      · have := key a ha h
        linarith
      · have := key b hb h
        linarith
    rw [hG]
    have h8 : m ^ 2 / Q * (1 / a + 1 / b) ≤ Real.Gamma (a + 1) * Real.Gamma (b + 1) / Real.Gamma (a + b + 1) * (1 / a + 1 / b) :=
      mul_le_mul_of_nonneg_right h4 (by positivity)
    linarith [le_abs_self M]

end Verif.Ml
