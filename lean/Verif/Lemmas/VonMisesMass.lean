import Verif.Lemmas.VonMisesLaw
import Verif.Spec.LocScale
import Mathlib.Analysis.SpecialFunctions.Integrals.Basic
import Mathlib.MeasureTheory.Integral.DominatedConvergence
import Mathlib.Analysis.Calculus.ParametricIntervalIntegral
import Mathlib.Tactic

/-!
# The mass of an interval under VonMises, and its entropy (C150)
-/

namespace Verif.VMMass
open MeasureTheory Set Verif.Spec intervalIntegral Filter Topology

/-- the density without its constant -/
noncomputable def bump (k t : ℝ) : ℝ := Real.exp (k * Real.cos t)

theorem bump_cont (k : ℝ) : Continuous (bump k) := by unfold bump; fun_prop

theorem bump_pos (k t : ℝ) : 0 < bump k t := Real.exp_pos _

theorem bump_int (k a b : ℝ) : IntervalIntegrable (bump k) volume a b := (bump_cont k).intervalIntegrable a b

/-- the integral over the window of half width `h` about `c` -/
noncomputable def window (k h c : ℝ) : ℝ := ∫ t in (c - h)..(c + h), bump k t

theorem window_deriv (k h c : ℝ) : HasDerivAt (window k h) (bump k (c + h) - bump k (c - h)) c := by
  have e : window k h = fun c => (∫ t in (0 : ℝ)..(c + h), bump k t) - ∫ t in (0 : ℝ)..(c - h), bump k t := by
    funext c
    rw [window, integral_interval_sub_left (bump_int _ _ _) (bump_int _ _ _)]
  rw [e]
  have h1 := (integral_hasDerivAt_right (bump_int k 0 (c + h)) ((bump_cont k).stronglyMeasurableAtFilter _ _)
    (bump_cont k).continuousAt).comp c ((hasDerivAt_id c).add_const h)
  have h2 := (integral_hasDerivAt_right (bump_int k 0 (c - h)) ((bump_cont k).stronglyMeasurableAtFilter _ _)
    (bump_cont k).continuousAt).comp c ((hasDerivAt_id c).sub_const h)
  simp only [mul_one] at h1 h2
  exact h1.sub h2

theorem window_even (k h c : ℝ) : window k h (-c) = window k h c := by
  have h1 := intervalIntegral.integral_comp_neg (a := c - h) (b := c + h) (bump k)
  have e : ∀ t, bump k (-t) = bump k t := fun t => by simp [bump]
  simp only [e] at h1
  unfold window
  rw [h1]
  congr 1 <;> ring

theorem window_period (k h c : ℝ) : window k h (c + 2 * Real.pi) = window k h c := by
  have h1 := integral_comp_add_right (a := c - h) (b := c + h) (bump k) (2 * Real.pi)
  have e : ∀ t, bump k (t + 2 * Real.pi) = bump k t := fun t => by simp [bump]
  simp only [e] at h1
  unfold window
  rw [h1]
  congr 1 <;> ring

/-- moving the window away from the mode loses mass -/
theorem window_anti {k h : ℝ} (hk : 0 < k) (h0 : 0 < h) (h1 : h < Real.pi) : StrictAntiOn (window k h) (Icc 0 Real.pi) := by
  refine strictAntiOn_of_deriv_neg (convex_Icc _ _) (fun c _ => (window_deriv k h c).continuousAt.continuousWithinAt) ?_
  intro c hc
  rw [interior_Icc] at hc
  rw [(window_deriv k h c).deriv, sub_neg]
  unfold bump
  rw [Real.exp_lt_exp]
  refine mul_lt_mul_of_pos_left ?_ hk
  rw [Real.cos_add, Real.cos_sub]
  have := mul_pos (Real.sin_pos_of_pos_of_lt_pi hc.1 hc.2) (Real.sin_pos_of_pos_of_lt_pi h0 h1)
  linarith

/-- every window is one of those about a point of `[0, π]` -/
theorem window_fold (k h c : ℝ) (hc : |c| < 2 * Real.pi) :
    ∃ d ∈ Icc 0 Real.pi, window k h c = window k h d ∧ (d = 0 ↔ c = 0) ∧ (d = Real.pi ↔ |c| = Real.pi) ∧
      Real.cos d = Real.cos c := by
  have hpi := Real.pi_pos
  have e : window k h c = window k h |c| := by
    rcases abs_choice c with hh | hh <;> rw [hh]
    rw [window_even]
  rcases le_total |c| Real.pi with hp | hp
  · exact ⟨|c|, ⟨abs_nonneg c, hp⟩, e, abs_eq_zero, Iff.rfl, Real.cos_abs c⟩
  · refine ⟨2 * Real.pi - |c|, ⟨by linarith, by linarith⟩, ?_, ⟨fun hh => by linarith, fun hh => ?_⟩,
      ⟨fun hh => by linarith, fun hh => by linarith⟩, by rw [Real.cos_two_pi_sub, Real.cos_abs]⟩
    · rw [e, ← window_even k h |c|, ← window_period k h (-|c|)]
      congr 1; ring
    · rw [hh, abs_zero] at hp
      linarith

/-- half of the mass in the window about the mode -/
noncomputable def inner (h k : ℝ) : ℝ := ∫ t in (0 : ℝ)..h, bump k t

/-- half of the mass outside -/
noncomputable def outer (h k : ℝ) : ℝ := ∫ t in h..Real.pi, bump k t

theorem inner_pos {h : ℝ} (h0 : 0 < h) (k : ℝ) : 0 < inner h k :=
  intervalIntegral_pos_of_pos (bump_int _ _ _) (bump_pos k) h0

theorem outer_pos {h : ℝ} (h1 : h < Real.pi) (k : ℝ) : 0 < outer h k :=
  intervalIntegral_pos_of_pos (bump_int _ _ _) (bump_pos k) h1

theorem inner_add_outer (h k : ℝ) : inner h k + outer h k = Real.pi * besselI0 k := by
  have hpi := Real.pi_pos
  unfold inner outer
  rw [integral_add_adjacent_intervals (bump_int _ _ _) (bump_int _ _ _), besselI0]
  unfold bump
  field_simp

theorem window_zero (k h : ℝ) : window k h 0 = 2 * inner h k := by
  have h1 := intervalIntegral.integral_comp_neg (a := 0) (b := h) (bump k)
  have e : ∀ t, bump k (-t) = bump k t := fun t => by simp [bump]
  simp only [e, neg_zero] at h1
  unfold window inner
  rw [zero_sub, zero_add, ← integral_add_adjacent_intervals (bump_int k (-h) 0) (bump_int k 0 h), ← h1]
  ring

theorem window_pi (k h : ℝ) : window k h Real.pi = 2 * (Real.pi * besselI0 k) - 2 * inner (Real.pi - h) k := by
  have h1 := integral_comp_sub_left (a := Real.pi - h) (b := Real.pi) (bump k) (2 * Real.pi)
  have e : ∀ t, bump k (2 * Real.pi - t) = bump k t := fun t => by simp [bump]
  simp only [e] at h1
  rw [show 2 * Real.pi - Real.pi = Real.pi by ring, show 2 * Real.pi - (Real.pi - h) = Real.pi + h by ring] at h1
  have h2 := inner_add_outer (Real.pi - h) k
  unfold outer at h2
  unfold window
  rw [← integral_add_adjacent_intervals (bump_int k (Real.pi - h) Real.pi) (bump_int k Real.pi (Real.pi + h)), ← h1]
  linarith

/-- the mass of the window about the mode -/
noncomputable def centre (h k : ℝ) : ℝ := inner h k / (Real.pi * besselI0 k)

theorem centre_eq (h k : ℝ) : centre h k = inner h k / (inner h k + outer h k) := by rw [centre, inner_add_outer]

private theorem tilt (k k' t : ℝ) : bump k' t = Real.exp ((k' - k) * Real.cos t) * bump k t := by
  unfold bump
  rw [← Real.exp_add]
  congr 1; ring

theorem inner_tilt {h k k' : ℝ} (h0 : 0 < h) (h1 : h < Real.pi) (hk : k < k') :
    Real.exp ((k' - k) * Real.cos h) * inner h k < inner h k' := by
  unfold inner
  rw [← intervalIntegral.integral_const_mul]
  refine integral_lt_integral_of_continuousOn_of_le_of_exists_lt h0 ((bump_cont k).const_mul _).continuousOn
    (bump_cont k').continuousOn (fun t ht => ?_) ⟨0, left_mem_Icc.2 h0.le, ?_⟩
  · rw [tilt k k' t]
    refine mul_le_mul_of_nonneg_right (Real.exp_le_exp.2 (mul_le_mul_of_nonneg_left ?_ (by linarith))) (bump_pos k t).le
    exact Real.cos_le_cos_of_nonneg_of_le_pi ht.1.le h1.le ht.2
  · rw [tilt k k' 0]
    refine mul_lt_mul_of_pos_right (Real.exp_lt_exp.2 (mul_lt_mul_of_pos_left ?_ (by linarith))) (bump_pos k 0)
    exact Real.cos_lt_cos_of_nonneg_of_le_pi le_rfl h1.le h0

theorem outer_tilt {h k k' : ℝ} (h0 : 0 < h) (h1 : h < Real.pi) (hk : k < k') :
    outer h k' < Real.exp ((k' - k) * Real.cos h) * outer h k := by
  unfold outer
  rw [← intervalIntegral.integral_const_mul]
  refine integral_lt_integral_of_continuousOn_of_le_of_exists_lt h1 (bump_cont k').continuousOn
    ((bump_cont k).const_mul _).continuousOn (fun t ht => ?_) ⟨Real.pi, right_mem_Icc.2 h1.le, ?_⟩
  · rw [tilt k k' t]
    refine mul_le_mul_of_nonneg_right (Real.exp_le_exp.2 (mul_le_mul_of_nonneg_left ?_ (by linarith))) (bump_pos k t).le
    exact Real.cos_le_cos_of_nonneg_of_le_pi h0.le ht.2 ht.1.le
  · rw [tilt k k' Real.pi]
    refine mul_lt_mul_of_pos_right (Real.exp_lt_exp.2 (mul_lt_mul_of_pos_left ?_ (by linarith))) (bump_pos k Real.pi)
    exact Real.cos_lt_cos_of_nonneg_of_le_pi h0.le le_rfl h1

/-- the more concentrated, the more mass about the mode -/
theorem centre_mono {h : ℝ} (h0 : 0 < h) (h1 : h < Real.pi) : StrictMono (centre h) := by
  intro k k' hk
  have a := inner_tilt h0 h1 hk
  have b := outer_tilt h0 h1 hk
  have p1 := inner_pos h0 k
  have p2 := inner_pos h0 k'
  have q1 := outer_pos h1 k
  have q2 := outer_pos h1 k'
  rw [centre_eq, centre_eq, div_lt_div_iff₀ (by linarith) (by linarith)]
  have e := Real.exp_pos ((k' - k) * Real.cos h)
  have s1 : inner h k * outer h k' < inner h k * (Real.exp ((k' - k) * Real.cos h) * outer h k) :=
    mul_lt_mul_of_pos_left b p1
  have s2 : Real.exp ((k' - k) * Real.cos h) * inner h k * outer h k < inner h k' * outer h k :=
    mul_lt_mul_of_pos_right a q1
  nlinarith

theorem centre_zero (h : ℝ) : centre h 0 = h / Real.pi := by
  unfold centre inner bump
  simp [besselI0_zero]

theorem inner_cont (h : ℝ) : Continuous (inner h) := by
  unfold inner bump
  exact continuous_parametric_intervalIntegral_of_continuous' (by fun_prop) 0 h

theorem centre_cont (h : ℝ) : Continuous (centre h) := by
  unfold centre
  refine (inner_cont h).div (continuous_const.mul besselI0_cont) fun k => ?_
  have := besselI0_pos k
  have := Real.pi_pos
  positivity

/-- the mass outside becomes small -/
theorem centre_large {h p : ℝ} (h0 : 0 < h) (h1 : h < Real.pi) (hp : p < 1) : ∃ k, 0 < k ∧ p < centre h k := by
  have hpi := Real.pi_pos
  set c := Real.cos (h / 2) - Real.cos h with hc
  have hc0 : 0 < c := sub_pos.2 (Real.cos_lt_cos_of_nonneg_of_le_pi (by linarith) h1.le (by linarith))
  have hin : ∀ k, 0 ≤ k → h / 2 * Real.exp (k * Real.cos (h / 2)) ≤ inner h k := by
    intro k hk
    have s1 : ∫ t in (0 : ℝ)..(h / 2), Real.exp (k * Real.cos (h / 2)) ≤ ∫ t in (0 : ℝ)..(h / 2), bump k t := by
      refine integral_mono_on (by linarith) (by simp) (bump_int _ _ _) fun t ht => ?_
      exact Real.exp_le_exp.2 (mul_le_mul_of_nonneg_left
        (Real.cos_le_cos_of_nonneg_of_le_pi ht.1 (by linarith) ht.2) hk)
    have s2 : ∫ t in (h / 2)..h, bump k t ≥ 0 := integral_nonneg (by linarith) fun t _ => (bump_pos k t).le
    have s3 := integral_add_adjacent_intervals (bump_int k 0 (h / 2)) (bump_int k (h / 2) h)
    simp only [intervalIntegral.integral_const, sub_zero, smul_eq_mul] at s1
    unfold inner
    linarith
  have hout : ∀ k, 0 ≤ k → outer h k ≤ Real.pi * Real.exp (k * Real.cos h) := by
    intro k hk
    have s1 : ∫ t in h..Real.pi, bump k t ≤ ∫ t in h..Real.pi, Real.exp (k * Real.cos h) := by
      refine integral_mono_on h1.le (bump_int _ _ _) (by simp) fun t ht => ?_
      exact Real.exp_le_exp.2 (mul_le_mul_of_nonneg_left
        (Real.cos_le_cos_of_nonneg_of_le_pi h0.le ht.2 ht.1) hk)
    simp only [intervalIntegral.integral_const, smul_eq_mul] at s1
    refine s1.trans (mul_le_mul_of_nonneg_right (by linarith) (Real.exp_pos _).le)
  -- `k c` large
  rcases le_or_gt p 0 with hp0 | hp0
  · exact ⟨1, one_pos, hp0.trans_lt (div_pos (inner_pos h0 1) (mul_pos hpi (besselI0_pos 1)))⟩
  set k := (2 * Real.pi / h * (1 / (1 - p))) / c with hk
  have hq : 0 < 1 - p := by linarith
  have hk0 : 0 < k := by positivity
  refine ⟨k, hk0, ?_⟩
  have a := hin k hk0.le
  have b := hout k hk0.le
  have p1 := inner_pos h0 k
  have q1 := outer_pos h1 k
  rw [centre_eq, lt_div_iff₀ (by linarith)]
  have e1 : Real.exp (k * Real.cos (h / 2)) = Real.exp (k * c) * Real.exp (k * Real.cos h) := by
    rw [← Real.exp_add]; congr 1; rw [hc]; ring
  have e2 : k * c < Real.exp (k * c) := by
    have := Real.add_one_le_exp (k * c)
    linarith
  have e3 : k * c = 2 * Real.pi / h * (1 / (1 - p)) := by rw [hk]; field_simp
  have e4 : Real.pi < h / 2 * (1 - p) * Real.exp (k * c) := by
    have : h / 2 * (1 - p) * (k * c) = Real.pi := by rw [e3]; field_simp
    rw [← this]
    exact mul_lt_mul_of_pos_left (by rw [← e3] at *; exact e2) (by positivity)
  have e5 : outer h k < (1 - p) * inner h k := by
    calc outer h k ≤ Real.pi * Real.exp (k * Real.cos h) := b
      _ < (h / 2 * (1 - p) * Real.exp (k * c)) * Real.exp (k * Real.cos h) := mul_lt_mul_of_pos_right e4 (Real.exp_pos _)
      _ = (1 - p) * (h / 2 * Real.exp (k * Real.cos (h / 2))) := by rw [e1]; ring
      _ ≤ (1 - p) * inner h k := mul_le_mul_of_nonneg_left a hq.le
  nlinarith

/-- the concentration for which the window about the mode has the mass `p` -/
theorem centre_solve {h p : ℝ} (h0 : 0 < h) (h1 : h < Real.pi) (hp0 : h / Real.pi < p) (hp : p < 1) :
    ∃ k, 0 < k ∧ centre h k = p := by
  obtain ⟨K, hK, hlt⟩ := centre_large h0 h1 hp
  obtain ⟨k, hk, e⟩ := intermediate_value_Ioo hK.le (centre_cont h).continuousOn
    (show p ∈ Ioo (centre h 0) (centre h K) from ⟨by rw [centre_zero]; exact hp0, hlt⟩)
  exact ⟨k, hk.1, e⟩

/-- the mass of `[l, u]` is that of a window -/
theorem mass_window {mu k l u : ℝ} (hl : -Real.pi ≤ l) (hlu : l ≤ u) (hu : u ≤ Real.pi) :
    (vonMisesLaw mu k).real (Icc l u) = window k ((u - l) / 2) ((l + u) / 2 - mu) / (2 * Real.pi * besselI0 k) := by
  have hpi := Real.pi_pos
  have hp := VMLaw.prob mu k
  rw [← integral_indicator_one measurableSet_Icc]
  rw [VMLaw.integral_law, integral_of_le (by linarith)]
  have e : ∀ x, (Icc l u).indicator 1 x * vonMisesPdf mu k x = (Icc l u).indicator (vonMisesPdf mu k) x := fun x => by
    by_cases hx : x ∈ Icc l u <;> simp [hx]
  simp only [e]
  rw [setIntegral_indicator measurableSet_Icc]
  have e2 : ∫ x in Ioc (-Real.pi) Real.pi ∩ Icc l u, vonMisesPdf mu k x = ∫ x in l..u, vonMisesPdf mu k x := by
    rw [integral_of_le hlu]
    refine setIntegral_congr_set ?_
    refine LE.le.eventuallyLE ?_ |>.antisymm ?_ |>.symm
    · exact fun x hx => ⟨⟨hl.trans_lt hx.1, hx.2.trans hu⟩, hx.1.le, hx.2⟩
    · refine EventuallyLE.trans (LE.le.eventuallyLE inter_subset_right) ?_
      exact Ioc_ae_eq_Icc.symm.le
  rw [e2]
  simp only [vonMisesPdf]
  rw [intervalIntegral.integral_div, integral_comp_sub_right (fun x => Real.exp (k * Real.cos x)) mu]
  unfold window bump
  rw [show (l + u) / 2 - mu - (u - l) / 2 = l - mu by ring, show (l + u) / 2 - mu + (u - l) / 2 = u - mu by ring]

theorem window_cont (h c : ℝ) : Continuous fun k => window k h c := by
  unfold window bump
  exact continuous_parametric_intervalIntegral_of_continuous' (by fun_prop) _ _

/-! ## Entropy -/

/-- the mean of `cos (x - mu)` -/
noncomputable def res (k : ℝ) : ℝ := besselI1 k / besselI0 k

theorem entropy_eq (mu k : ℝ) :
    entropyOf ((Ioc (-Real.pi) Real.pi).indicator (vonMisesPdf mu k)) = Real.log (2 * Real.pi * besselI0 k) - k * res k := by
  have hpi := Real.pi_pos
  have hb := besselI0_pos k
  have e1 : ∀ x, vonMisesPdf mu k x * Real.log (vonMisesPdf mu k x) =
      k * (Real.cos (x - mu) * vonMisesPdf mu k x) - Real.log (2 * Real.pi * besselI0 k) * vonMisesPdf mu k x := by
    intro x
    have : Real.log (vonMisesPdf mu k x) = k * Real.cos (x - mu) - Real.log (2 * Real.pi * besselI0 k) := by
      unfold vonMisesPdf
      rw [Real.log_div (Real.exp_pos _).ne' (by positivity), Real.log_exp]
    rw [this]; ring
  have e2 : ∫ x, (Ioc (-Real.pi) Real.pi).indicator (vonMisesPdf mu k) x *
      Real.log ((Ioc (-Real.pi) Real.pi).indicator (vonMisesPdf mu k) x) =
      ∫ x in (-Real.pi)..Real.pi, vonMisesPdf mu k x * Real.log (vonMisesPdf mu k x) := by
    rw [integral_of_le (by linarith), ← MeasureTheory.integral_indicator measurableSet_Ioc]
    congr 1
    funext x
    by_cases hx : x ∈ Ioc (-Real.pi) Real.pi <;> simp [hx]
  have i1 : IntervalIntegrable (fun x => Real.cos (x - mu) * vonMisesPdf mu k x) volume (-Real.pi) Real.pi :=
    Continuous.intervalIntegrable ((by fun_prop : Continuous fun x => Real.cos (x - mu)).mul (VMLaw.cont mu k)) _ _
  have i2 : IntervalIntegrable (vonMisesPdf mu k) volume (-Real.pi) Real.pi := (VMLaw.cont mu k).intervalIntegrable _ _
  unfold entropyOf
  rw [e2]
  simp only [e1]
  rw [intervalIntegral.integral_sub (i1.const_mul _) (i2.const_mul _), intervalIntegral.integral_const_mul,
    intervalIntegral.integral_const_mul, VMLaw.total, VMLaw.cos_centred]
  unfold res
  ring

theorem cos_bump (k : ℝ) : ∫ t in (0 : ℝ)..Real.pi, Real.cos t * bump k t = Real.pi * besselI0 k * res k := by
  have := (besselI0_pos k).ne'
  have hpi := Real.pi_pos
  unfold res besselI1 bump
  generalize (∫ t in (0 : ℝ)..Real.pi, Real.cos t * Real.exp (k * Real.cos t)) = J
  field_simp

theorem sum_bump (k : ℝ) : ∫ t in (0 : ℝ)..Real.pi, bump k t = Real.pi * besselI0 k := by
  have hpi := Real.pi_pos
  unfold besselI0 bump
  field_simp

/-- Jensen for the exponential -/
theorem tangent {k k' : ℝ} (h : k ≠ k') : besselI0 k * Real.exp ((k' - k) * res k) < besselI0 k' := by
  have hpi := Real.pi_pos
  have hb := besselI0_pos k
  set a := (k' - k) * res k with ha
  have i1 : Continuous fun t => Real.cos t * bump k t := Real.continuous_cos.mul (bump_cont k)
  have hlow : ∫ t in (0 : ℝ)..Real.pi, Real.exp a * ((1 - a) * bump k t + (k' - k) * (Real.cos t * bump k t)) =
      Real.pi * besselI0 k * Real.exp a := by
    rw [intervalIntegral.integral_const_mul, intervalIntegral.integral_add (((bump_cont k).const_mul _).intervalIntegrable _ _)
      ((i1.const_mul _).intervalIntegrable _ _), intervalIntegral.integral_const_mul, intervalIntegral.integral_const_mul,
      cos_bump, sum_bump, ha]
    ring
  have hpt : ∀ t, (k' - k) * Real.cos t - a ≠ 0 →
      Real.exp a * ((1 - a) * bump k t + (k' - k) * (Real.cos t * bump k t)) < bump k' t := by
    intro t ht
    rw [tilt k k' t]
    have s := Real.add_one_lt_exp ht
    have e : Real.exp ((k' - k) * Real.cos t) = Real.exp a * Real.exp ((k' - k) * Real.cos t - a) := by
      rw [← Real.exp_add]; congr 1; ring
    rw [e]
    have := mul_lt_mul_of_pos_left (mul_lt_mul_of_pos_right s (bump_pos k t)) (Real.exp_pos a)
    linarith
  have hle : ∀ t, Real.exp a * ((1 - a) * bump k t + (k' - k) * (Real.cos t * bump k t)) ≤ bump k' t := by
    intro t
    rcases eq_or_ne ((k' - k) * Real.cos t - a) 0 with h0 | h0
    · rw [tilt k k' t]
      have : (k' - k) * Real.cos t = a := by linarith
      rw [this]
      refine le_of_eq ?_
      have : a * bump k t = (k' - k) * Real.cos t * bump k t := by rw [this]
      linear_combination (-Real.exp a) * this
    · exact (hpt t h0).le
  have hlt : ∫ t in (0 : ℝ)..Real.pi, Real.exp a * ((1 - a) * bump k t + (k' - k) * (Real.cos t * bump k t)) <
      ∫ t in (0 : ℝ)..Real.pi, bump k' t := by
    refine integral_lt_integral_of_continuousOn_of_le_of_exists_lt hpi
      ((((bump_cont k).const_mul _).add (i1.const_mul _)).const_mul _).continuousOn (bump_cont k').continuousOn
      (fun t _ => hle t) ?_
    rcases eq_or_ne ((k' - k) * Real.cos 0 - a) 0 with h0 | h0
    · refine ⟨Real.pi, right_mem_Icc.2 hpi.le, hpt _ ?_⟩
      rw [Real.cos_zero] at h0
      rw [Real.cos_pi]
      intro h1
      exact h (by linarith)
    · exact ⟨0, left_mem_Icc.2 hpi.le, hpt _ h0⟩
  rw [hlow, sum_bump, mul_assoc] at hlt
  exact lt_of_mul_lt_mul_left hlt hpi.le

theorem tangent_log {k k' : ℝ} (h : k ≠ k') :
    Real.log (2 * Real.pi * besselI0 k) + (k' - k) * res k < Real.log (2 * Real.pi * besselI0 k') := by
  have hpi := Real.pi_pos
  have hb := besselI0_pos k
  have hb' := besselI0_pos k'
  have := Real.log_lt_log (by positivity) (tangent h)
  rw [Real.log_mul hb.ne' (Real.exp_pos _).ne', Real.log_exp] at this
  rw [Real.log_mul (by positivity) hb.ne', Real.log_mul (by positivity) hb'.ne']
  linarith

theorem res_mono : StrictMono res := by
  intro k k' h
  have a := tangent_log h.ne
  have b := tangent_log h.ne'
  by_contra hc
  push Not at hc
  nlinarith

/-- the more concentrated, the less entropy -/
theorem entropy_anti {mu mu' k k' : ℝ} (hk : 0 ≤ k) (h : k < k') :
    entropyOf ((Ioc (-Real.pi) Real.pi).indicator (vonMisesPdf mu' k')) <
      entropyOf ((Ioc (-Real.pi) Real.pi).indicator (vonMisesPdf mu k)) := by
  rw [entropy_eq, entropy_eq]
  have a := tangent_log h.ne'
  have b := res_mono h
  nlinarith

end Verif.VMMass
