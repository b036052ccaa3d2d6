import Verif.Spec.MlTrunc
import Verif.Lemmas.MlNegBin
import Verif.Lemmas.MlConvex
import Mathlib.MeasureTheory.Integral.DominatedConvergence
import Mathlib.Tactic

/-!
# The likelihood of densities proportional to `exp (a x - b x²)` on an interval (C142)
-/

namespace Verif.Ml
open Verif Verif.Spec Set MeasureTheory

/-- the exponent -/
def tg (a b x : ℝ) : ℝ := a * x - b * x ^ 2

/-- the factor that makes it a density -/
noncomputable def tz (c d a b : ℝ) : ℝ := ∫ x in c..d, Real.exp (tg a b x)

/-- the log-likelihood -/
noncomputable def tobj (c d : ℝ) (s : List ℝ) (a b : ℝ) : ℝ :=
  (s.map fun x => tg a b x).sum - s.length * Real.log (tz c d a b)

theorem tg_cont (a b : ℝ) : Continuous (tg a b) := by unfold tg; fun_prop

theorem texp_cont (a b : ℝ) : Continuous fun x => Real.exp (tg a b x) := (tg_cont a b).rexp

variable {c d : ℝ} (hcd : c < d)
include hcd

theorem tz_pos (a b : ℝ) : 0 < tz c d a b :=
  intervalIntegral.intervalIntegral_pos_of_pos ((texp_cont a b).intervalIntegrable _ _) (fun _ => Real.exp_pos _) hcd

theorem tz_cont : Continuous fun p : ℝ × ℝ => tz c d p.1 p.2 := by
  unfold tz
  refine intervalIntegral.continuous_parametric_intervalIntegral_of_continuous' ?_ c d
  unfold tg Function.uncurry
  fun_prop

/-- two different exponents do not differ by a constant -/
theorem tg_differ {a b a0 b0 : ℝ} (h : (a, b) ≠ (a0, b0)) (r : ℝ) : ∃ x ∈ Icc c d, tg a b x - tg a0 b0 x ≠ r := by
  by_contra hc
  push Not at hc
  have h1 := hc c ⟨le_rfl, hcd.le⟩
  have h2 := hc d ⟨hcd.le, le_rfl⟩
  have h3 := hc ((c + d) / 2) ⟨by linarith, by linarith⟩
  unfold tg at h1 h2 h3
  have hb : (b - b0) * (d - c) ^ 2 = 0 := by nlinarith
  have hb' : b = b0 := by
    rcases mul_eq_zero.1 hb with h | h
    · linarith
    · exact absurd h (by have : 0 < d - c := by linarith
                         positivity)
  subst hb'
  have ha : (a - a0) * (d - c) = 0 := by nlinarith
  rcases mul_eq_zero.1 ha with h4 | h4
  · exact h (by rw [show a = a0 by linarith])
  · linarith

/-- Gibbs' inequality -/
theorem t_gibbs {a b a0 b0 : ℝ} (h : (a, b) ≠ (a0, b0)) :
    ∫ x in c..d, (tg a b x - tg a0 b0 x) * Real.exp (tg a0 b0 x) <
      (Real.log (tz c d a b) - Real.log (tz c d a0 b0)) * tz c d a0 b0 := by
  obtain ⟨r, hr⟩ : ∃ r, r = Real.log (tz c d a b) - Real.log (tz c d a0 b0) := ⟨_, rfl⟩
  have hz := tz_pos hcd a b
  have hz0 := tz_pos hcd a0 b0
  have c1 := tg_cont a b
  have c2 := tg_cont a0 b0
  have key : ∫ x in c..d, ((tg a b x - tg a0 b0 x) * Real.exp (tg a0 b0 x) + (1 - r) * Real.exp (tg a0 b0 x)) <
      ∫ x in c..d, Real.exp (-r) * Real.exp (tg a b x) := by
    refine intervalIntegral.integral_lt_integral_of_continuousOn_of_le_of_exists_lt hcd (by fun_prop) (by fun_prop) ?_ ?_
    · intro x _
      have := Real.add_one_le_exp (tg a b x - tg a0 b0 x - r)
      have h2 : Real.exp (-r) * Real.exp (tg a b x) = Real.exp (tg a b x - tg a0 b0 x - r) * Real.exp (tg a0 b0 x) := by
        rw [← Real.exp_add, ← Real.exp_add]
        congr 1
        ring
      rw [h2, ← add_mul]
      exact mul_le_mul_of_nonneg_right (by linarith) (Real.exp_pos _).le
    · obtain ⟨x, hx, hne⟩ := tg_differ hcd h r
      refine ⟨x, hx, ?_⟩
      have := Real.add_one_lt_exp (show tg a b x - tg a0 b0 x - r ≠ 0 from fun h => hne (by linarith))
      have h2 : Real.exp (-r) * Real.exp (tg a b x) = Real.exp (tg a b x - tg a0 b0 x - r) * Real.exp (tg a0 b0 x) := by
        rw [← Real.exp_add, ← Real.exp_add]
        congr 1
        ring
      rw [h2, ← add_mul]
      exact mul_lt_mul_of_pos_right (by linarith) (Real.exp_pos _)
  rw [intervalIntegral.integral_add (Continuous.intervalIntegrable (by fun_prop) _ _)
    (Continuous.intervalIntegrable (by fun_prop) _ _), intervalIntegral.integral_const_mul,
    intervalIntegral.integral_const_mul] at key
  change _ + (1 - r) * tz c d a0 b0 < Real.exp (-r) * tz c d a b at key
  have e : Real.exp (-r) * tz c d a b = tz c d a0 b0 := by
    rw [hr, neg_sub, Real.exp_sub, Real.exp_log hz0, Real.exp_log hz]
    field_simp
  rw [e] at key
  rw [← hr]
  linarith

/-- the log-likelihood is strictly concave -/
theorem tobj_mid (s : List ℝ) (hs : s ≠ []) {a b a' b' : ℝ} (h : (a, b) ≠ (a', b')) :
    tobj c d s a b + tobj c d s a' b' < 2 * tobj c d s ((a + a') / 2) ((b + b') / 2) := by
  have hn : (0 : ℝ) < s.length := by exact_mod_cast List.length_pos_iff.2 hs
  obtain ⟨am, ham⟩ : ∃ am, am = (a + a') / 2 := ⟨_, rfl⟩
  obtain ⟨bm, hbm⟩ : ∃ bm, bm = (b + b') / 2 := ⟨_, rfl⟩
  have n1 : (a, b) ≠ (am, bm) := by
    intro e
    obtain ⟨e1, e2⟩ := Prod.mk.inj e
    exact h (by rw [show a = a' by linarith, show b = b' by linarith])
  have n2 : (a', b') ≠ (am, bm) := by
    intro e
    obtain ⟨e1, e2⟩ := Prod.mk.inj e
    exact h (by rw [show a = a' by linarith, show b = b' by linarith])
  have g1 := t_gibbs hcd n1
  have g2 := t_gibbs hcd n2
  have c1 := tg_cont a b
  have c2 := tg_cont a' b'
  have c3 := tg_cont am bm
  have hsum : (∫ x in c..d, (tg a b x - tg am bm x) * Real.exp (tg am bm x)) +
      ∫ x in c..d, (tg a' b' x - tg am bm x) * Real.exp (tg am bm x) = 0 := by
    rw [← intervalIntegral.integral_add (Continuous.intervalIntegrable (by fun_prop) _ _)
      (Continuous.intervalIntegrable (by fun_prop) _ _)]
    have : ∀ x, (tg a b x - tg am bm x) * Real.exp (tg am bm x) + (tg a' b' x - tg am bm x) * Real.exp (tg am bm x) = 0 := by
      intro x
      rw [← add_mul, ham, hbm]
      unfold tg
      ring
    simp only [this, intervalIntegral.integral_zero]
  have hz := tz_pos hcd am bm
  have hpos : 0 < Real.log (tz c d a b) + Real.log (tz c d a' b') - 2 * Real.log (tz c d am bm) := by
    by_contra hc
    push Not at hc
    nlinarith
  have e : (s.map fun x => tg a b x).sum + (s.map fun x => tg a' b' x).sum = 2 * (s.map fun x => tg am bm x).sum := by
    rw [← lsum_add, ← lsum_mul]
    congr 1
    refine List.map_congr_left fun x _ => ?_
    rw [ham, hbm]
    unfold tg
    ring
  rw [← ham, ← hbm]
  unfold tobj
  nlinarith [mul_pos hn hpos]

/-- the size of an exponent on the interval -/
def tk (c d a b : ℝ) : ℝ := |a - b * (c + d)| + b * (d - c)

theorem tg_lip {a b : ℝ} (hb : 0 ≤ b) {x y : ℝ} (hx : x ∈ Icc c d) (hy : y ∈ Icc c d) :
    tg a b y - tg a b x ≤ tk c d a b * |y - x| := by
  have e : tg a b y - tg a b x = (y - x) * ((a - b * (c + d)) - b * ((x + y) - (c + d))) := by unfold tg; ring
  rw [e]
  refine (le_abs_self _).trans ?_
  rw [abs_mul, mul_comm]
  refine mul_le_mul_of_nonneg_right ((abs_sub _ _).trans ?_) (abs_nonneg _)
  unfold tk
  refine add_le_add le_rfl ?_
  rw [abs_mul, abs_of_nonneg hb]
  refine mul_le_mul_of_nonneg_left (abs_le.2 ⟨?_, ?_⟩) hb <;> linarith [hx.1, hx.2, hy.1, hy.2]

/-- far away from the origin the likelihood is small -/
theorem tobj_far (s : List ℝ) (hin : ∀ x ∈ s, x ∈ Icc c d) (hc : c ∈ s) (hd : d ∈ s) :
    ∃ C, ∀ a b, 0 ≤ b → tobj c d s a b ≤ C - (d - c) / 8 * tk c d a b := by
  have hs : s ≠ [] := List.ne_nil_of_mem hc
  have hn : (0 : ℝ) < s.length := by exact_mod_cast List.length_pos_iff.2 hs
  have hW : 0 < d - c := by linarith
  refine ⟨s.length * (1 + Real.log (8 * s.length) - 1 - Real.log (d - c)) + 1 / 8, fun a b hb => ?_⟩
  obtain ⟨K, hK⟩ : ∃ K, K = tk c d a b := ⟨_, rfl⟩
  have hK0 : 0 ≤ K := by rw [hK]; unfold tk; positivity
  obtain ⟨x0, hx0, hmax⟩ := isCompact_Icc.exists_isMaxOn (nonempty_Icc.2 hcd.le) (tg_cont a b).continuousOn
  have hmax' : ∀ x ∈ Icc c d, tg a b x ≤ tg a b x0 := fun x hx => hmax hx
  obtain ⟨G, hG⟩ : ∃ G, G = tg a b x0 := ⟨_, rfl⟩
  rw [← hG] at hmax'
  -- the integral
  obtain ⟨h, hh⟩ : ∃ h, h = (d - c) / (1 + (d - c) * K) := ⟨_, rfl⟩
  have hden : 0 < 1 + (d - c) * K := by positivity
  have hh0 : 0 < h := hh ▸ by positivity
  have hhW : h ≤ d - c := by
    rw [hh, div_le_iff₀ hden]
    nlinarith [mul_nonneg hW.le (mul_nonneg hW.le hK0)]
  have hhK : K * h ≤ 1 := by
    rw [hh, ← mul_div_assoc, div_le_one hden]
    linarith
  obtain ⟨p, hp1, hp2, hp3⟩ : ∃ p, c ≤ p ∧ p + h ≤ d ∧ ∀ x ∈ Icc p (p + h), |x0 - x| ≤ h := by
    by_cases hq : c ≤ x0 - h
    · refine ⟨x0 - h, hq, by linarith [hx0.2], fun x hx => abs_le.2 ⟨by linarith [hx.2], by linarith [hx.1]⟩⟩
    · push Not at hq
      exact ⟨c, le_rfl, by linarith, fun x hx => abs_le.2 ⟨by linarith [hx.2, hx0.1], by linarith [hx.1]⟩⟩
  have hz : h * Real.exp (G - 1) ≤ tz c d a b := by
    have h1 : ∫ x in p..(p + h), Real.exp (G - 1) ≤ ∫ x in p..(p + h), Real.exp (tg a b x) := by
      refine intervalIntegral.integral_mono_on (by linarith) (by simp) ((texp_cont a b).intervalIntegrable _ _) ?_
      intro x hx
      refine Real.exp_le_exp.2 ?_
      have hxI : x ∈ Icc c d := ⟨hp1.trans hx.1, hx.2.trans hp2⟩
      have := tg_lip hcd (a := a) hb hxI hx0
      rw [← hG, ← hK] at this
      have h3 := mul_le_mul_of_nonneg_left (hp3 x hx) hK0
      linarith
    have h2 := intervalIntegral.integral_mono_interval (μ := volume) hp1 (show p ≤ p + h by linarith) hp2
      (Filter.Eventually.of_forall fun x => (Real.exp_pos (tg a b x)).le) ((texp_cont a b).intervalIntegrable c d)
    rw [intervalIntegral.integral_const, add_sub_cancel_left, smul_eq_mul] at h1
    exact h1.trans h2
  have hlz : Real.log h + (G - 1) ≤ Real.log (tz c d a b) := by
    have := Real.log_le_log (by positivity) hz
    rwa [Real.log_mul hh0.ne' (Real.exp_pos _).ne', Real.log_exp] at this
  have hlh : Real.log h = Real.log (d - c) - Real.log (1 + (d - c) * K) := by rw [hh, Real.log_div hW.ne' hden.ne']
  have hln : Real.log (1 + (d - c) * K) ≤ (1 + (d - c) * K) / (8 * s.length) - 1 + Real.log (8 * s.length) := by
    have := Real.log_le_sub_one_of_pos (show 0 < (1 + (d - c) * K) / (8 * s.length) by positivity)
    rw [Real.log_div hden.ne' (by positivity)] at this
    linarith
  -- the sum
  have hsum : (d - c) / 4 * K ≤ (s.map fun x => G - tg a b x).sum := by
    have h1 := two_le_sum (l := s) (f := fun x => G - tg a b x) (fun x hx => by linarith [hmax' x (hin x hx)]) hc hd hcd.ne
    have hm := hmax' ((c + d) / 2) ⟨by linarith, by linarith⟩
    have h3 := hmax' c ⟨le_rfl, hcd.le⟩
    have h4 := hmax' d ⟨hcd.le, le_rfl⟩
    have e1 : 2 * tg a b ((c + d) / 2) - tg a b c - tg a b d = b * (d - c) * (d - c) / 2 := by unfold tg; ring
    have e2 : tg a b d - tg a b c = (d - c) * (a - b * (c + d)) := by unfold tg; ring
    have e3 : (d - c) * |a - b * (c + d)| ≤ (G - tg a b c) + (G - tg a b d) := by
      rw [← abs_of_pos hW, ← abs_mul, ← e2, abs_le]
      constructor <;> linarith
    have e4 : (d - c) / 4 * K = (d - c) * |a - b * (c + d)| / 4 + b * (d - c) * (d - c) / 4 := by rw [hK]; unfold tk; ring
    rw [e4]
    nlinarith
  have e5 : (s.map fun x => G - tg a b x).sum = s.length * G - (s.map fun x => tg a b x).sum := by
    have := lsum_add s (fun x => G - tg a b x) (fun x => tg a b x)
    simp only [sub_add_cancel, lsum_const] at this
    linarith
  unfold tobj
  rw [← hK]
  have h6 : (s.length : ℝ) * ((1 + (d - c) * K) / (8 * s.length)) = (1 + (d - c) * K) / 8 := by field_simp
  have h7 := mul_le_mul_of_nonneg_left hlz hn.le
  have h8 := mul_le_mul_of_nonneg_left hln hn.le
  rw [hlh] at h7
  nlinarith

theorem tobj_cont (s : List ℝ) : Continuous fun p : ℝ × ℝ => tobj c d s p.1 p.2 := by
  unfold tobj
  have h1 : Continuous fun p : ℝ × ℝ => (s.map fun x => tg p.1 p.2 x).sum := by
    have : ∀ p : ℝ × ℝ, (s.map fun x => tg p.1 p.2 x).sum = p.1 * (s.map fun x => x).sum + -p.2 * (s.map fun x => x ^ 2).sum := by
      intro p
      rw [← lsum_mul, ← lsum_mul, ← lsum_add]
      congr 1
      refine List.map_congr_left fun x _ => ?_
      unfold tg
      ring
    simp only [this]
    fun_prop
  exact h1.sub (continuous_const.mul ((tz_cont hcd).log fun p => (tz_pos hcd _ _).ne'))

private theorem far_box (K0 : ℝ) : ∃ A B : ℝ, ∀ a b, 0 ≤ b → (a, b) ∉ Icc (-A) A ×ˢ Icc 0 B → K0 < tk c d a b := by
  have hW : 0 < d - c := by linarith
  refine ⟨|K0| + |K0| / (d - c) * |c + d|, |K0| / (d - c), fun a b hb hout => ?_⟩
  by_contra hK
  push Not at hK
  apply hout
  have hK1 : tk c d a b ≤ |K0| := hK.trans (le_abs_self _)
  unfold tk at hK1
  have hB : b ≤ |K0| / (d - c) := by
    rw [le_div_iff₀ hW]
    linarith [abs_nonneg (a - b * (c + d))]
  have h1 : |a - b * (c + d)| ≤ |K0| := by nlinarith
  have h2 : |b * (c + d)| ≤ |K0| / (d - c) * |c + d| := by
    rw [abs_mul, abs_of_nonneg hb]
    exact mul_le_mul_of_nonneg_right hB (abs_nonneg _)
  have h3 : |a| ≤ |K0| + |K0| / (d - c) * |c + d| := by
    calc |a| = |(a - b * (c + d)) + b * (c + d)| := by ring_nf
      _ ≤ _ := (abs_add_le _ _).trans (add_le_add h1 h2)
  exact ⟨abs_le.1 h3, hb, hB⟩

/-- the largest likelihood over `b ≥ 0`, and over `b = 0` -/
theorem tobj_max (s : List ℝ) (hin : ∀ x ∈ s, x ∈ Icc c d) (hc : c ∈ s) (hd : d ∈ s) :
    (∃ p : ℝ × ℝ, 0 ≤ p.2 ∧ ∀ q : ℝ × ℝ, 0 ≤ q.2 → tobj c d s q.1 q.2 ≤ tobj c d s p.1 p.2) ∧
    ∃ t : ℝ, ∀ t', tobj c d s t' 0 ≤ tobj c d s t 0 := by
  have hW : 0 < d - c := by linarith
  obtain ⟨C, hC⟩ := tobj_far hcd s hin hc hd
  obtain ⟨A, B, hAB⟩ := far_box hcd ((C - tobj c d s 0 0) / ((d - c) / 8))
  have hout : ∀ a b, 0 ≤ b → (a, b) ∉ Icc (-A) A ×ˢ Icc 0 B → tobj c d s a b < tobj c d s 0 0 := by
    intro a b hb h
    have h1 := hAB a b hb h
    rw [div_lt_iff₀ (by positivity)] at h1
    have h2 := hC a b hb
    linarith
  constructor
  · obtain ⟨p, hp, hm⟩ := exists_max (fun p : ℝ × ℝ => tobj c d s p.1 p.2) {p | 0 ≤ p.2} (Icc (-A) A ×ˢ Icc 0 B) (0, 0)
      (by simp) (isCompact_Icc.prod isCompact_Icc) (fun p hp => hp.2.1) (tobj_cont hcd s).continuousOn
      (fun p hp h => hout p.1 p.2 hp h)
    exact ⟨p, hp, fun q hq => hm q hq⟩
  · obtain ⟨t, -, hm⟩ := exists_max (fun t : ℝ => tobj c d s t 0) univ (Icc (-A) A) 0 (mem_univ _) isCompact_Icc
      (subset_univ _) ((tobj_cont hcd s).comp (by fun_prop : Continuous fun t : ℝ => (t, (0 : ℝ)))).continuousOn
      (fun t _ h => hout t 0 le_rfl fun hh => h hh.1)
    exact ⟨t, fun t' => hm t' (mem_univ _)⟩

/-! ## The exponential laws -/

omit hcd in
theorem tilted_eq (t : ℝ) (f : ℝ → ℝ) : tilted t c d f = (∫ x in c..d, f x * Real.exp (tg t 0 x)) / tz c d t 0 := by
  unfold tilted tz tg
  simp

theorem tilted_quad (t u v w : ℝ) : (∫ x in c..d, (u + v * x + w * x ^ 2) * Real.exp (tg t 0 x)) =
    (u + v * tiltedMean t c d + w * tilted t c d fun x => x ^ 2) * tz c d t 0 := by
  have hz := (tz_pos hcd t 0).ne'
  have c0 := texp_cont t 0
  have e : ∀ x, (u + v * x + w * x ^ 2) * Real.exp (tg t 0 x) =
      u * Real.exp (tg t 0 x) + (v * (x * Real.exp (tg t 0 x)) + w * (x ^ 2 * Real.exp (tg t 0 x))) := fun x => by ring
  simp only [e]
  rw [intervalIntegral.integral_add (Continuous.intervalIntegrable (by fun_prop) _ _)
    (Continuous.intervalIntegrable (by fun_prop) _ _), intervalIntegral.integral_add
    (Continuous.intervalIntegrable (by fun_prop) _ _) (Continuous.intervalIntegrable (by fun_prop) _ _),
    intervalIntegral.integral_const_mul, intervalIntegral.integral_const_mul, intervalIntegral.integral_const_mul]
  unfold tiltedMean
  rw [tilted_eq, tilted_eq]
  change u * tz c d t 0 + _ = _
  field_simp
  ring

theorem tiltedVar_eq (t : ℝ) : tiltedVar t c d = tilted t c d (fun x => x ^ 2) - tiltedMean t c d ^ 2 := by
  have hz := (tz_pos hcd t 0).ne'
  unfold tiltedVar
  rw [tilted_eq, div_eq_iff hz]
  have := tilted_quad hcd t (tiltedMean t c d ^ 2) (-2 * tiltedMean t c d) 1
  rw [show (∫ x in c..d, (x - tiltedMean t c d) ^ 2 * Real.exp (tg t 0 x)) =
    ∫ x in c..d, (tiltedMean t c d ^ 2 + -2 * tiltedMean t c d * x + 1 * x ^ 2) * Real.exp (tg t 0 x) by
      congr 1
      funext x
      ring, this]
  ring

theorem t_gibbs_tilt {a b t : ℝ} (h : (a, b) ≠ (t, 0)) :
    (a - t) * tiltedMean t c d - b * tilted t c d (fun x => x ^ 2) < Real.log (tz c d a b) - Real.log (tz c d t 0) := by
  have h1 := t_gibbs hcd h
  have e : ∀ x, tg a b x - tg t 0 x = 0 + (a - t) * x + (-b) * x ^ 2 := fun x => by unfold tg; ring
  simp only [e] at h1
  rw [tilted_quad hcd] at h1
  have := lt_of_mul_lt_mul_right h1 (tz_pos hcd t 0).le
  linarith

theorem tz_up {a b t M : ℝ} (hM : M ≤ 1) (h : ∀ x ∈ Icc c d, |tg a b x - tg t 0 x| ≤ M) :
    Real.log (tz c d a b) - Real.log (tz c d t 0) ≤
      (a - t) * tiltedMean t c d - b * tilted t c d (fun x => x ^ 2) + M ^ 2 := by
  have hz := tz_pos hcd a b
  have hz0 := tz_pos hcd t 0
  have h1 := Real.log_le_sub_one_of_pos (div_pos hz hz0)
  rw [Real.log_div hz.ne' hz0.ne'] at h1
  refine h1.trans ?_
  rw [sub_le_iff_le_add, div_le_iff₀ hz0]
  have h2 : tz c d a b ≤ ∫ x in c..d, ((1 + M ^ 2) + (a - t) * x + (-b) * x ^ 2) * Real.exp (tg t 0 x) := by
    have c0 := texp_cont t 0
    refine intervalIntegral.integral_mono_on hcd.le ((texp_cont a b).intervalIntegrable _ _)
      (Continuous.intervalIntegrable (by fun_prop) _ _) fun x hx => ?_
    have h3 := h x hx
    have h4 := Real.abs_exp_sub_one_sub_id_le (h3.trans hM)
    have h5 : (tg a b x - tg t 0 x) ^ 2 ≤ M ^ 2 := sq_le_sq' (abs_le.1 h3).1 (abs_le.1 h3).2
    have h6 := (abs_le.1 h4).2
    have e : Real.exp (tg a b x) = Real.exp (tg a b x - tg t 0 x) * Real.exp (tg t 0 x) := by
      rw [← Real.exp_add]
      congr 1
      ring
    rw [e]
    refine mul_le_mul_of_nonneg_right ?_ (Real.exp_pos _).le
    have e2 : tg a b x - tg t 0 x = (a - t) * x + (-b) * x ^ 2 := by unfold tg; ring
    rw [e2] at h5 h6 ⊢
    linarith
  rw [tilted_quad hcd] at h2
  refine h2.trans (le_of_eq ?_)
  ring

section Sample
variable (s : List ℝ) (hs : s ≠ [])
include hs

omit hcd hs in
theorem tsum_eq (a b : ℝ) : (s.map fun x => tg a b x).sum = a * s.sum - b * (s.map fun x => x ^ 2).sum := by
  have : (s.map fun x => tg a b x) = s.map fun x => a * x + (-b) * x ^ 2 := List.map_congr_left fun x _ => by unfold tg; ring
  rw [this, lsum_add, lsum_mul, lsum_mul, List.map_id']
  ring

omit hcd in
theorem sampleVar_eq : sampleVar s = (s.map fun x => x ^ 2).sum / s.length - sampleMean s ^ 2 := by
  have hn : (s.length : ℝ) ≠ 0 := by exact_mod_cast (List.length_pos_iff.2 hs).ne'
  unfold sampleVar
  have : (s.map fun x => (x - sampleMean s) ^ 2) = s.map fun x => (x ^ 2 + (-2 * sampleMean s) * x) + sampleMean s ^ 2 :=
    List.map_congr_left fun x _ => by ring
  rw [this, lsum_add, lsum_add, lsum_mul, lsum_const, List.map_id']
  have e : s.sum = sampleMean s * s.length := by unfold sampleMean; field_simp
  rw [e]
  field_simp
  ring

omit hcd in
theorem tobj_eq (a b : ℝ) : tobj c d s a b =
    s.length * (a * sampleMean s - b * (sampleVar s + sampleMean s ^ 2) - Real.log (tz c d a b)) := by
  have hn : (s.length : ℝ) ≠ 0 := by exact_mod_cast (List.length_pos_iff.2 hs).ne'
  unfold tobj
  rw [tsum_eq, sampleVar_eq s hs]
  have e : s.sum = sampleMean s * s.length := by unfold sampleMean; field_simp
  rw [e]
  field_simp
  ring

/-- the most likely exponential law has the mean of the sample -/
theorem tilt_mean_of_max {t : ℝ} (hm : ∀ t', tobj c d s t' 0 ≤ tobj c d s t 0) : tiltedMean t c d = sampleMean s := by
  have hn : (0 : ℝ) < s.length := by exact_mod_cast List.length_pos_iff.2 hs
  obtain ⟨D, hD⟩ : ∃ D, D = sampleMean s - tiltedMean t c d := ⟨_, rfl⟩
  obtain ⟨R, hR⟩ : ∃ R, R = |c| + |d| + 1 := ⟨_, rfl⟩
  have hR1 : 1 ≤ R := by rw [hR]; linarith [abs_nonneg c, abs_nonneg d]
  have hRx : ∀ x ∈ Icc c d, |x| ≤ R := by
    intro x hx
    rw [hR, abs_le]
    constructor
    · linarith [neg_abs_le c, hx.1, abs_nonneg d]
    · linarith [le_abs_self d, hx.2, abs_nonneg c]
  obtain ⟨e, he⟩ : ∃ e, e = D / (R ^ 2 * (2 + |D|)) := ⟨_, rfl⟩
  have hden : 0 < R ^ 2 * (2 + |D|) := by positivity
  have heR : |e| * R ^ 2 ≤ 1 := by
    rw [he, abs_div, abs_of_pos hden, div_mul_eq_mul_div, div_le_one hden]
    nlinarith [abs_nonneg D, sq_nonneg R]
  have heR1 : |e| * R ≤ 1 := by nlinarith [abs_nonneg e]
  have h1 := hm (t + e)
  rw [tobj_eq s hs, tobj_eq s hs] at h1
  have h2 := le_of_mul_le_mul_left h1 hn
  have h3 := tz_up hcd (a := t + e) (b := 0) (t := t) heR1 fun x hx => by
    have e1 : tg (t + e) 0 x - tg t 0 x = e * x := by unfold tg; ring
    rw [e1, abs_mul]
    exact mul_le_mul_of_nonneg_left (hRx x hx) (abs_nonneg _)
  have h4 : e * D ≤ e ^ 2 * R ^ 2 := by
    rw [mul_pow, sq_abs] at h3
    rw [hD]
    nlinarith
  have h5 : D = e * (R ^ 2 * (2 + |D|)) := by rw [he]; field_simp
  by_contra hne
  have hD0 : D ≠ 0 := fun h => hne (by linarith)
  have he0 : e ≠ 0 := fun h => hD0 (by rw [h5, h, zero_mul])
  have h6 : 0 < e ^ 2 * R ^ 2 := by positivity
  have h7 : e * D = e ^ 2 * R ^ 2 * (2 + |D|) := by
    calc e * D = e * (e * (R ^ 2 * (2 + |D|))) := by rw [← h5]
      _ = _ := by ring
  rw [h7] at h4
  nlinarith [abs_nonneg D]

omit hs in
/-- an exponential law is determined by its mean -/
theorem tilt_unique {t t' : ℝ} (h : tiltedMean t c d = tiltedMean t' c d) : t = t' := by
  by_contra hne
  have h1 := t_gibbs_tilt hcd (a := t') (b := 0) (t := t) (by simpa using Ne.symm hne)
  have h2 := t_gibbs_tilt hcd (a := t) (b := 0) (t := t') (by simpa using hne)
  rw [h] at h1
  linarith

omit hcd in
private theorem second_nonneg : 0 ≤ sampleVar s + sampleMean s ^ 2 := by
  have hn : (0 : ℝ) < s.length := by exact_mod_cast List.length_pos_iff.2 hs
  have : 0 ≤ sampleVar s := by
    unfold sampleVar
    refine div_nonneg (List.sum_nonneg ?_) hn.le
    intro y hy
    obtain ⟨x, -, rfl⟩ := List.mem_map.1 hy
    positivity
  positivity

/-- a sample that varies too much: flatter densities are more likely than any given one -/
theorem tobj_better {t : ℝ} (ht : tiltedMean t c d = sampleMean s) (hv : tiltedVar t c d ≤ sampleVar s) {a b : ℝ} (hb : 0 < b)
    {B : ℝ} (hB : 0 < B) : ∃ e, 0 < e ∧ e ≤ B ∧ tobj c d s a b < tobj c d s t e := by
  have hn : (0 : ℝ) < s.length := by exact_mod_cast List.length_pos_iff.2 hs
  obtain ⟨T, hT⟩ : ∃ T, T = tilted t c d (fun x => x ^ 2) := ⟨_, rfl⟩
  obtain ⟨S, hS⟩ : ∃ S, S = sampleVar s + sampleMean s ^ 2 := ⟨_, rfl⟩
  have hST : T ≤ S := by
    rw [tiltedVar_eq hcd, ht, ← hT] at hv
    linarith
  have hS0 : 0 ≤ S := hS ▸ second_nonneg s hs
  have h1 := t_gibbs_tilt hcd (a := a) (b := b) (t := t) (by
    intro h
    exact hb.ne' (Prod.mk.inj h).2)
  rw [ht, ← hT] at h1
  obtain ⟨δ, hδ⟩ : ∃ δ, δ = (t * sampleMean s - Real.log (tz c d t 0)) - (a * sampleMean s - b * S - Real.log (tz c d a b)) :=
    ⟨_, rfl⟩
  have hδ0 : 0 < δ := by rw [hδ]; nlinarith
  obtain ⟨e, he⟩ : ∃ e, e = min B (δ / (2 * (S + 1))) := ⟨_, rfl⟩
  have he0 : 0 < e := by rw [he]; exact lt_min hB (by positivity)
  refine ⟨e, he0, he ▸ min_le_left _ _, ?_⟩
  rw [tobj_eq s hs, tobj_eq s hs, ← hS]
  refine mul_lt_mul_of_pos_left ?_ hn
  have h4 : Real.log (tz c d t e) ≤ Real.log (tz c d t 0) := by
    refine Real.log_le_log (tz_pos hcd _ _) ?_
    refine intervalIntegral.integral_mono_on hcd.le ((texp_cont t e).intervalIntegrable _ _)
      ((texp_cont t 0).intervalIntegrable _ _) fun x _ => Real.exp_le_exp.2 ?_
    unfold tg
    nlinarith [mul_nonneg he0.le (sq_nonneg x)]
  have h5 : e * S < δ := by
    have h6 : e ≤ δ / (2 * (S + 1)) := he ▸ min_le_right _ _
    have h7 : δ / (2 * (S + 1)) * S < δ := by
      rw [div_mul_eq_mul_div, div_lt_iff₀ (by positivity)]
      nlinarith
    nlinarith
  linarith

/-- when there is a most likely bell-shaped density -/
theorem tobj_iff (hin : ∀ x ∈ s, x ∈ Icc c d) (hc : c ∈ s) (hd : d ∈ s) {t : ℝ} (ht : tiltedMean t c d = sampleMean s) :
    (∃ a b, 0 < b ∧ ∀ a' b', 0 < b' → tobj c d s a' b' ≤ tobj c d s a b) ↔ sampleVar s < tiltedVar t c d := by
  have hn : (0 : ℝ) < s.length := by exact_mod_cast List.length_pos_iff.2 hs
  obtain ⟨T, hT⟩ : ∃ T, T = tilted t c d (fun x => x ^ 2) := ⟨_, rfl⟩
  obtain ⟨S, hS⟩ : ∃ S, S = sampleVar s + sampleMean s ^ 2 := ⟨_, rfl⟩
  have hcond : sampleVar s < tiltedVar t c d ↔ S < T := by
    rw [tiltedVar_eq hcd, ht, ← hT, hS]
    constructor <;> intro h <;> linarith
  rw [hcond]
  constructor
  · rintro ⟨a, b, hb, hm⟩
    by_contra hST
    obtain ⟨e, he0, -, hlt⟩ := tobj_better hcd s hs ht (not_lt.1 fun h => hST (hcond.1 h)) hb one_pos (a := a)
    exact absurd (hm t e he0) (not_le.2 hlt)
  · intro hST
    obtain ⟨⟨p, hp0, hp⟩, -⟩ := tobj_max hcd s hin hc hd
    rcases hp0.lt_or_eq with hpos | hz
    · exact ⟨p.1, p.2, hpos, fun a' b' hb' => hp (a', b') hb'.le⟩
    · exfalso
      obtain ⟨R, hR⟩ : ∃ R, R = |c| + |d| + 1 := ⟨_, rfl⟩
      have hR1 : 1 ≤ R := by rw [hR]; linarith [abs_nonneg c, abs_nonneg d]
      have hRx : ∀ x ∈ Icc c d, x ^ 2 ≤ R ^ 2 := by
        intro x hx
        refine sq_le_sq' ?_ ?_
        · rw [hR]; linarith [neg_abs_le c, hx.1, abs_nonneg d]
        · rw [hR]; linarith [le_abs_self d, hx.2, abs_nonneg c]
      -- the best exponential law
      have h1 : p.1 * sampleMean s - Real.log (tz c d p.1 0) ≤ t * sampleMean s - Real.log (tz c d t 0) := by
        by_cases hpt : p.1 = t
        · rw [hpt]
        · have := t_gibbs_tilt hcd (a := p.1) (b := 0) (t := t) (by simpa using hpt)
          rw [ht] at this
          linarith
      obtain ⟨e, he⟩ : ∃ e, e = (T - S) / (R ^ 4 * (T - S + 2)) := ⟨_, rfl⟩
      have hTS : 0 < T - S := by linarith
      have hden : 0 < R ^ 4 * (T - S + 2) := by positivity
      have he0 : 0 < e := by rw [he]; positivity
      have hR4 : R ^ 2 ≤ R ^ 4 := pow_le_pow_right₀ hR1 (by norm_num)
      have he1 : e * R ^ 4 ≤ 1 := by
        rw [he, div_mul_eq_mul_div, div_le_one hden]
        nlinarith [pow_pos (show 0 < R by linarith) 4]
      have heR : e * R ^ 2 ≤ 1 := by nlinarith
      have h2 := tz_up hcd (a := t) (b := e) (t := t) heR fun x hx => by
        have e1 : tg t e x - tg t 0 x = -(e * x ^ 2) := by unfold tg; ring
        rw [e1, abs_neg, abs_of_nonneg (by positivity)]
        exact mul_le_mul_of_nonneg_left (hRx x hx) he0.le
      rw [← hT] at h2
      have h3 := hp (t, e) he0.le
      simp only at h3
      rw [tobj_eq s hs, tobj_eq s hs, ← hS, ← hz] at h3
      have h4 := le_of_mul_le_mul_left h3 hn
      have h5 : (e * R ^ 2) ^ 2 < e * (T - S) := by
        have : (e * R ^ 2) ^ 2 = e * (e * R ^ 4) := by ring
        rw [this]
        refine mul_lt_mul_of_pos_left ?_ he0
        rw [he, div_mul_eq_mul_div, div_lt_iff₀ hden]
        nlinarith [pow_pos (show 0 < R by linarith) 4, mul_pos hTS (pow_pos (show 0 < R by linarith) 4)]
      linarith

theorem tobj_one {a b a' b' : ℝ} (hb : 0 < b) (hb' : 0 < b') (h : ∀ u v, 0 < v → tobj c d s u v ≤ tobj c d s a b)
    (h' : ∀ u v, 0 < v → tobj c d s u v ≤ tobj c d s a' b') : a = a' ∧ b = b' := by
  by_contra hne
  have := tobj_mid hcd s hs (a := a) (b := b) (a' := a') (b' := b') fun e => hne (Prod.mk.inj e)
  have h1 := h ((a + a') / 2) ((b + b') / 2) (by positivity)
  have h2 := h' ((a + a') / 2) ((b + b') / 2) (by positivity)
  linarith

end Sample

end Verif.Ml
