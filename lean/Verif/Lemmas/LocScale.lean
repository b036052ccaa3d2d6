import Verif.Spec.LocScale
import Verif.Lemmas.LawBase
import Verif.Lemmas.LawEven
import Verif.Lemmas.LawNormal
import Verif.Lemmas.LawLaplace
import Mathlib.Analysis.SpecialFunctions.ImproperIntegrals
import Mathlib.MeasureTheory.Integral.IntervalIntegral.Basic
import Mathlib.MeasureTheory.Integral.IntegralEqImproper

/-!
# Interval probabilities and entropy of symmetric densities with one peak
-/

namespace Verif.LocScale
open MeasureTheory Verif.Spec Verif.Law Set Filter Topology

/-- moved by `m` and stretched by `s` -/
noncomputable def moved (g : ℝ → ℝ) (m s x : ℝ) : ℝ := g ((x - m) / s) / s

/-- probability of the interval of half width `h` around `t` -/
noncomputable def around (g : ℝ → ℝ) (t h : ℝ) : ℝ := ∫ x in (t - h)..(t + h), g x

variable {g : ℝ → ℝ}

theorem peak_pos (hg : Peak g) (x : ℝ) : 0 < g x := by
  have h : ∀ y, 0 ≤ y → 0 < g y := fun y hy => (hg.nonneg (y + 1)).trans_lt (hg.falls y (y + 1) hy (by linarith))
  rcases le_total 0 x with hx | hx
  · exact h x hx
  · rw [← hg.even]; exact h (-x) (by linarith)

theorem moved_meas (hg : Peak g) (m s : ℝ) : Measurable (moved g m s) :=
  ((hg.cont.measurable.comp (by fun_prop)).div_const _)

theorem massOf_eq {f : ℝ → ℝ} (hm : Measurable f) (h0 : ∀ x, 0 ≤ f x) (hi : Integrable f) {l u : ℝ} (h : l ≤ u) :
    massOf f l u = ∫ x in l..u, f x := by
  unfold massOf ofPdf Measure.real
  rw [withDensity_apply _ measurableSet_Icc, ← ofReal_integral_eq_lintegral_ofReal hi.integrableOn
    (Eventually.of_forall fun x => h0 x), ENNReal.toReal_ofReal (setIntegral_nonneg measurableSet_Icc fun x _ => h0 x),
    intervalIntegral.integral_of_le h, integral_Icc_eq_integral_Ioc]

theorem moved_int (hg : Peak g) (m : ℝ) {s : ℝ} (hs : 0 < s) : Integrable (moved g m s) := by
  have h1 : Integrable fun x => g (x / s) := hg.int.comp_div hs.ne'
  exact (h1.comp_sub_right m).div_const s

/-- the probability of an interval, in units of the scale -/
theorem mass_moved (hg : Peak g) (m : ℝ) {s : ℝ} (hs : 0 < s) {l u : ℝ} (h : l ≤ u) :
    massOf (moved g m s) l u = around g (((l + u) / 2 - m) / s) ((u - l) / (2 * s)) := by
  rw [massOf_eq (moved_meas hg m s) (fun x => div_nonneg (hg.nonneg _) hs.le) (moved_int hg m hs) h]
  unfold moved around
  rw [intervalIntegral.integral_div, intervalIntegral.integral_comp_sub_right (fun x => g (x / s)) m,
    intervalIntegral.integral_comp_div g hs.ne', smul_eq_mul, mul_comm, mul_div_assoc, div_self hs.ne', mul_one]
  congr 1 <;> field_simp <;> ring

theorem around_neg (hg : Peak g) (t h : ℝ) : around g (-t) h = around g t h := by
  unfold around
  have := intervalIntegral.integral_comp_neg (a := t - h) (b := t + h) g
  rw [show -t - h = -(t + h) by ring, show -t + h = -(t - h) by ring, ← this]
  exact intervalIntegral.integral_congr fun x _ => hg.even x

theorem ii (hg : Peak g) (a b : ℝ) : IntervalIntegrable g volume a b := hg.cont.intervalIntegrable a b

/-- the further from zero, the less likely -/
theorem around_anti (hg : Peak g) {h : ℝ} (hh : 0 < h) {a b : ℝ} (ha : 0 ≤ a) (hab : a < b) : around g b h < around g a h := by
  unfold around
  have e1 : ∫ x in (a - h)..(a + h), g x = (∫ x in (a - h)..(b - h), g x) + ∫ x in (b - h)..(a + h), g x :=
    (intervalIntegral.integral_add_adjacent_intervals (ii hg _ _) (ii hg _ _)).symm
  have e2 : ∫ x in (b - h)..(b + h), g x = (∫ x in (b - h)..(a + h), g x) + ∫ x in (a + h)..(b + h), g x :=
    (intervalIntegral.integral_add_adjacent_intervals (ii hg _ _) (ii hg _ _)).symm
  have e3 : ∫ x in (a - h)..(b - h), g x = ∫ x in a..b, g (x - h) :=
    (intervalIntegral.integral_comp_sub_right g h).symm
  have e4 : ∫ x in (a + h)..(b + h), g x = ∫ x in a..b, g (x + h) :=
    (intervalIntegral.integral_comp_add_right g h).symm
  have c1 : Continuous fun x => g (x - h) := hg.cont.comp (by fun_prop)
  have c2 : Continuous fun x => g (x + h) := hg.cont.comp (by fun_prop)
  have lt : ∀ x, 0 < x → g (x + h) < g (x - h) := by
    intro x hx0
    rcases le_total h x with hc | hc
    · exact hg.falls (x - h) (x + h) (by linarith) (by linarith)
    · rw [← hg.even (x - h)]
      exact hg.falls (-(x - h)) (x + h) (by linarith) (by linarith)
  have : ∫ x in a..b, g (x + h) < ∫ x in a..b, g (x - h) :=
    intervalIntegral.integral_lt_integral_of_continuousOn_of_le_of_exists_lt hab c2.continuousOn c1.continuousOn
      (fun x hx => (lt x (ha.trans_lt hx.1)).le) ⟨b, right_mem_Icc.2 hab.le, lt b (ha.trans_lt hab)⟩
  linarith

/-- the interval around zero is the most likely one of its length -/
theorem around_lt (hg : Peak g) {t h : ℝ} (hh : 0 < h) (ht : t ≠ 0) : around g t h < around g 0 h := by
  rcases lt_or_gt_of_ne ht with h1 | h1
  · rw [← around_neg hg]; exact around_anti hg hh le_rfl (by linarith)
  · exact around_anti hg hh le_rfl h1

theorem around_le (hg : Peak g) (t : ℝ) {h : ℝ} (hh : 0 < h) : around g t h ≤ around g 0 h := by
  by_cases ht : t = 0
  · rw [ht]
  · exact (around_lt hg hh ht).le

/-- wider intervals are more likely -/
theorem around_mono (hg : Peak g) (t : ℝ) : StrictMono (around g t) := by
  intro h k hk
  unfold around
  have e1 : ∫ x in (t - k)..(t + k), g x = (∫ x in (t - k)..(t - h), g x) + ∫ x in (t - h)..(t + k), g x :=
    (intervalIntegral.integral_add_adjacent_intervals (ii hg _ _) (ii hg _ _)).symm
  have e2 : ∫ x in (t - h)..(t + k), g x = (∫ x in (t - h)..(t + h), g x) + ∫ x in (t + h)..(t + k), g x :=
    (intervalIntegral.integral_add_adjacent_intervals (ii hg _ _) (ii hg _ _)).symm
  have p1 : 0 < ∫ x in (t - k)..(t - h), g x :=
    intervalIntegral.intervalIntegral_pos_of_pos (ii hg _ _) (peak_pos hg) (by linarith)
  have p2 : 0 < ∫ x in (t + h)..(t + k), g x :=
    intervalIntegral.intervalIntegral_pos_of_pos (ii hg _ _) (peak_pos hg) (by linarith)
  linarith

theorem around_cont (hg : Peak g) : Continuous (around g 0) := by
  unfold around
  have h := intervalIntegral.continuous_primitive (f := g) (fun a b => ii hg a b) 0
  have e : ∀ x : ℝ, ∫ y in (0 - x)..(0 + x), g y = (∫ y in (0 : ℝ)..(0 + x), g y) - ∫ y in (0 : ℝ)..(0 - x), g y := by
    intro x
    rw [intervalIntegral.integral_interval_sub_left (ii hg _ _) (ii hg _ _)]
  simp only [e]
  exact (h.comp (by fun_prop)).sub (h.comp (by fun_prop))

theorem around_lim (hg : Peak g) : Tendsto (around g 0) atTop (𝓝 1) := by
  have := intervalIntegral_tendsto_integral hg.int (a := fun h : ℝ => 0 - h) (b := fun h : ℝ => 0 + h)
    (by simpa using tendsto_neg_atTop_atBot) (by simp only [zero_add]; exact tendsto_id)
  rwa [hg.one] at this

theorem around_lt_one (hg : Peak g) (h : ℝ) : around g 0 h < 1 :=
  lt_of_lt_of_le (around_mono hg 0 (show h < h + 1 by linarith))
    ((around_mono hg 0).monotone.ge_of_tendsto (around_lim hg) _)

/-- every probability is that of exactly one interval around zero -/
theorem around_exists (hg : Peak g) {p : ℝ} (h0 : 0 < p) (h1 : p < 1) : ∃ h, 0 < h ∧ around g 0 h = p := by
  obtain ⟨k, hk⟩ := ((around_lim hg).eventually (lt_mem_nhds h1)).exists
  have z : around g 0 0 = 0 := by simp [around]
  have kp : 0 < k := by
    by_contra hc
    have := (around_mono hg 0).monotone (not_lt.1 hc)
    rw [z] at this; linarith
  obtain ⟨h, hh, e⟩ := intermediate_value_Icc kp.le (around_cont hg).continuousOn ⟨by rw [z]; exact h0.le, hk.le⟩
  refine ⟨h, ?_, e⟩
  rcases hh.1.lt_or_eq with h' | h'
  · exact h'
  · subst h'; rw [z] at e; linarith

theorem around_shift_cont (hg : Peak g) (h : ℝ) : Continuous fun t => around g t h := by
  unfold around
  have hc := intervalIntegral.continuous_primitive (f := g) (fun a b => ii hg a b) 0
  have e : ∀ x : ℝ, ∫ y in (x - h)..(x + h), g y = (∫ y in (0 : ℝ)..(x + h), g y) - ∫ y in (0 : ℝ)..(x - h), g y := by
    intro x
    rw [intervalIntegral.integral_interval_sub_left (ii hg _ _) (ii hg _ _)]
  simp only [e]
  exact (hc.comp (by fun_prop)).sub (hc.comp (by fun_prop))

/-- far from zero the probability vanishes -/
theorem around_far (hg : Peak g) (h : ℝ) : Tendsto (fun t => around g t h) atTop (𝓝 0) := by
  have e : ∀ t, around g t h = (around g 0 (t + h) - around g 0 (t - h)) / 2 := by
    intro t
    have s : ∀ k, around g 0 k = 2 * ∫ x in (0 : ℝ)..k, g x := by
      intro k
      unfold around
      rw [zero_sub, zero_add, ← intervalIntegral.integral_add_adjacent_intervals (ii hg (-k) 0) (ii hg 0 k)]
      have := intervalIntegral.integral_comp_neg (a := 0) (b := k) g
      rw [neg_zero] at this
      rw [← this, intervalIntegral.integral_congr fun x _ => hg.even x]
      ring
    rw [s, s]
    unfold around
    rw [← intervalIntegral.integral_interval_sub_left (ii hg 0 (t + h)) (ii hg 0 (t - h))]
    ring
  simp only [e]
  have h1 := (around_lim hg).comp (tendsto_atTop_add_const_right atTop h tendsto_id)
  have h2 := (around_lim hg).comp (tendsto_atTop_add_const_right atTop (-h) tendsto_id)
  have := (h1.sub h2).div_const 2
  simpa [sub_eq_add_neg] using this

/-- the interval from `-a` to `b`, stretched by `k` -/
theorem span_mono (hg : Peak g) {a b : ℝ} (ha : 0 ≤ a) (hb : 0 ≤ b) (hab : 0 < a + b) {j k : ℝ} (hjk : j < k) :
    ∫ x in (-a * j)..(b * j), g x < ∫ x in (-a * k)..(b * k), g x := by
  have e1 : ∫ x in (-a * k)..(b * k), g x = (∫ x in (-a * k)..(-a * j), g x) + ∫ x in (-a * j)..(b * k), g x :=
    (intervalIntegral.integral_add_adjacent_intervals (ii hg _ _) (ii hg _ _)).symm
  have e2 : ∫ x in (-a * j)..(b * k), g x = (∫ x in (-a * j)..(b * j), g x) + ∫ x in (b * j)..(b * k), g x :=
    (intervalIntegral.integral_add_adjacent_intervals (ii hg _ _) (ii hg _ _)).symm
  have p1 : 0 ≤ ∫ x in (-a * k)..(-a * j), g x :=
    intervalIntegral.integral_nonneg (by nlinarith) fun x _ => hg.nonneg x
  have p2 : 0 ≤ ∫ x in (b * j)..(b * k), g x :=
    intervalIntegral.integral_nonneg (by nlinarith) fun x _ => hg.nonneg x
  rcases ha.lt_or_eq with h | h
  · have : 0 < ∫ x in (-a * k)..(-a * j), g x :=
      intervalIntegral.intervalIntegral_pos_of_pos (ii hg _ _) (peak_pos hg) (by nlinarith)
    linarith
  · have : 0 < ∫ x in (b * j)..(b * k), g x :=
      intervalIntegral.intervalIntegral_pos_of_pos (ii hg _ _) (peak_pos hg) (by nlinarith)
    linarith

theorem span_exists (hg : Peak g) {a b p : ℝ} (ha : 0 < a) (hb : 0 < b) (h0 : 0 < p) (h1 : p < 1) :
    ∃ k, 0 < k ∧ ∫ x in (-a * k)..(b * k), g x = p := by
  have lim : Tendsto (fun k : ℝ => ∫ x in (-a * k)..(b * k), g x) atTop (𝓝 1) := by
    have := intervalIntegral_tendsto_integral hg.int (a := fun k : ℝ => -a * k) (b := fun k : ℝ => b * k)
      (tendsto_id.const_mul_atTop_of_neg (by linarith)) (tendsto_id.const_mul_atTop hb)
    rwa [hg.one] at this
  have hc := intervalIntegral.continuous_primitive (f := g) (fun a b => ii hg a b) 0
  have cont : Continuous fun k : ℝ => ∫ x in (-a * k)..(b * k), g x := by
    have e : ∀ k : ℝ, ∫ x in (-a * k)..(b * k), g x = (∫ y in (0 : ℝ)..(b * k), g y) - ∫ y in (0 : ℝ)..(-a * k), g y := by
      intro x
      rw [intervalIntegral.integral_interval_sub_left (ii hg _ _) (ii hg _ _)]
    simp only [e]
    exact (hc.comp (by fun_prop)).sub (hc.comp (by fun_prop))
  obtain ⟨k, hk⟩ := (lim.eventually (lt_mem_nhds h1)).exists
  have z : ∫ x in (-a * 0)..(b * 0), g x = 0 := by simp
  have kp : 0 < k := by
    by_contra hcon
    rcases (not_lt.1 hcon).lt_or_eq with h | h
    · have := span_mono hg ha.le hb.le (by linarith) h
      rw [z] at this; linarith
    · subst h; rw [z] at hk; linarith
  obtain ⟨h, hh, e⟩ := intermediate_value_Icc kp.le cont.continuousOn ⟨by simp only [z]; exact h0.le, hk.le⟩
  refine ⟨h, ?_, e⟩
  rcases hh.1.lt_or_eq with h' | h'
  · exact h'
  · subst h'; simp only [z] at e; linarith

/-! ### Distribution functions -/

/-- probability up to `x` -/
noncomputable def upTo (g : ℝ → ℝ) (x : ℝ) : ℝ := ∫ y in Iic x, g y

theorem cdf_moved (hg : Peak g) (m : ℝ) {s : ℝ} (hs : 0 < s) (x : ℝ) :
    (ofPdf (moved g m s)).real (Iic x) = upTo g ((x - m) / s) := by
  have hi := moved_int hg m hs
  have h0 : ∀ y, 0 ≤ moved g m s y := fun y => div_nonneg (hg.nonneg _) hs.le
  have e1 : (ofPdf (moved g m s)).real (Iic x) = ∫ y in Iic x, moved g m s y := by
    unfold ofPdf Measure.real
    rw [withDensity_apply _ measurableSet_Iic, ← ofReal_integral_eq_lintegral_ofReal hi.integrableOn
      (Eventually.of_forall h0), ENNReal.toReal_ofReal (setIntegral_nonneg measurableSet_Iic fun x _ => h0 x)]
  rw [e1, upTo]
  have l1 := intervalIntegral_tendsto_integral_Iic (a := fun t : ℝ => m - s * t) x hi.integrableOn
    (show Tendsto (fun t : ℝ => m - s * t) atTop atBot from
      tendsto_atBot_add_const_left atTop m (tendsto_neg_atTop_atBot.comp (tendsto_id.const_mul_atTop hs)))
  have l2 := intervalIntegral_tendsto_integral_Iic (a := fun t : ℝ => -t) ((x - m) / s) hg.int.integrableOn
    tendsto_neg_atTop_atBot
  refine tendsto_nhds_unique (l1.congr fun t => ?_) l2
  unfold moved
  rw [intervalIntegral.integral_div, intervalIntegral.integral_comp_sub_right (fun x => g (x / s)) m,
    intervalIntegral.integral_comp_div g hs.ne', smul_eq_mul, mul_comm, mul_div_assoc, div_self hs.ne', mul_one]
  congr 1
  field_simp
  ring

theorem upTo_mono (hg : Peak g) : StrictMono (upTo g) := by
  intro a b hab
  have : (∫ y in Iic b, g y) - ∫ y in Iic a, g y = ∫ y in a..b, g y :=
    intervalIntegral.integral_Iic_sub_Iic hg.int.integrableOn hg.int.integrableOn
  have p : 0 < ∫ y in a..b, g y := intervalIntegral.intervalIntegral_pos_of_pos (ii hg _ _) (peak_pos hg) hab
  unfold upTo
  linarith

theorem upTo_neg (hg : Peak g) (x : ℝ) : upTo g (-x) = 1 - upTo g x := by
  unfold upTo
  have h1 : ∫ y in Iic (-x), g y = ∫ y in Ioi x, g y := by
    have := integral_comp_neg_Iic (-x) g
    rw [neg_neg] at this
    rw [← this]
    exact setIntegral_congr_fun measurableSet_Iic fun y _ => (hg.even y).symm
  have h2 := integral_add_compl (measurableSet_Iic (a := x)) hg.int
  rw [compl_Iic, hg.one] at h2
  linarith

theorem upTo_zero (hg : Peak g) : upTo g 0 = 1 / 2 := by
  have := upTo_neg hg 0
  rw [neg_zero] at this; linarith

theorem upTo_around (hg : Peak g) (x : ℝ) : upTo g x = 1 / 2 + around g 0 x / 2 := by
  have e : upTo g (0 + x) - upTo g (0 - x) = around g 0 x :=
    intervalIntegral.integral_Iic_sub_Iic hg.int.integrableOn hg.int.integrableOn
  rw [zero_add, zero_sub, upTo_neg hg] at e
  linarith

theorem upTo_exists (hg : Peak g) {p : ℝ} (h0 : 0 < p) (h1 : p < 1) : ∃ x, upTo g x = p := by
  have key : ∀ q, 1 / 2 < q → q < 1 → ∃ x, upTo g x = q := by
    intro q hq hq1
    obtain ⟨h, -, e⟩ := around_exists hg (p := 2 * q - 1) (by linarith) (by linarith)
    exact ⟨h, by rw [upTo_around hg, e]; ring⟩
  rcases lt_trichotomy p (1 / 2) with h | h | h
  · obtain ⟨x, hx⟩ := key (1 - p) (by linarith) (by linarith)
    exact ⟨-x, by rw [upTo_neg hg, hx]; ring⟩
  · exact ⟨0, by rw [upTo_zero hg, h]⟩
  · exact key p h h1

/-- stretching adds the logarithm of the scale to the entropy -/
theorem entropy_moved (hg : Peak g) (m : ℝ) {s : ℝ} (hs : 0 < s) :
    entropyOf (moved g m s) = Real.log s + entropyOf g := by
  unfold entropyOf moved
  have e : ∀ x, g ((x - m) / s) / s * Real.log (g ((x - m) / s) / s) =
      (g ((x - m) / s) * Real.log (g ((x - m) / s)) - Real.log s * g ((x - m) / s)) / s := by
    intro x
    rw [Real.log_div (peak_pos hg _).ne' hs.ne']; ring
  simp only [e]
  have i1 := (show HI (fun x => g x * Real.log (g x)) _ from ⟨hg.ent, rfl⟩).affine m hs
  have i2 := (show HI g 1 from ⟨hg.int, hg.one⟩).affine m hs
  rw [integral_div, integral_sub i1.1 (i2.1.const_mul _), integral_const_mul, i1.2, i2.2]
  field_simp
  ring

/-! ## The families -/

theorem peak_scaled (hg : Peak g) {s : ℝ} (hs : 0 < s) : Peak (moved g 0 s) where
  cont := by unfold moved; exact (hg.cont.comp (by fun_prop)).div_const _
  nonneg x := div_nonneg (hg.nonneg _) hs.le
  even x := by unfold moved; rw [show (-x - 0) / s = -((x - 0) / s) by ring, hg.even]
  falls x y h0 h := by
    unfold moved
    refine div_lt_div_of_pos_right (hg.falls _ _ (by simp only [sub_zero]; positivity) ?_) hs
    simp only [sub_zero]
    exact div_lt_div_of_pos_right h hs
  int := moved_int hg 0 hs
  one := by
    have i2 := (show HI g 1 from ⟨hg.int, hg.one⟩).affine 0 hs
    unfold moved
    rw [integral_div, i2.2]; field_simp
  ent := by
    have i1 := (show HI (fun x => g x * Real.log (g x)) _ from ⟨hg.ent, rfl⟩).affine 0 hs
    have i2 := (show HI g 1 from ⟨hg.int, hg.one⟩).affine 0 hs
    refine ((i1.1.sub (i2.1.const_mul (Real.log s))).div_const s).congr (Eventually.of_forall fun x => ?_)
    simp only [moved, Pi.sub_apply]
    rw [Real.log_div (peak_pos hg _).ne' hs.ne']; ring

private theorem peak_of (hc : Continuous g) (hp : ∀ x, 0 < g x) (he : ∀ x, g (-x) = g x)
    (hf : ∀ x y, 0 ≤ x → x < y → g y < g x) {v : ℝ} (hm : HasMoments (ofPdf g) 0 v) {A B : ℝ}
    (hl : ∀ x, |Real.log (g x)| ≤ A + B * x ^ 2) : Peak g := by
  have h0 : ∀ x, 0 ≤ g x := fun x => (hp x).le
  have := hm.prob
  have i0 : Integrable g := by
    simpa using (ofPdf_integrable hc.measurable h0 fun _ => 1).1 (integrable_const 1)
  have i2 : Integrable fun x => x ^ 2 * g x := by
    simpa using (ofPdf_integrable hc.measurable h0 _).1 hm.int2
  refine ⟨hc, h0, he, hf, i0, ?_, ?_⟩
  · have := ofPdf_integral hc.measurable h0 fun _ => 1
    simpa using this.symm
  · refine ((i0.const_mul A).add (i2.const_mul B)).mono'
      ((hc.mul (hc.log fun x => (hp x).ne')).aestronglyMeasurable) (Eventually.of_forall fun x => ?_)
    rw [Real.norm_eq_abs, abs_mul, abs_of_pos (hp x)]
    simp only [Pi.add_apply]
    nlinarith [mul_le_mul_of_nonneg_left (hl x) (h0 x)]

theorem peak_normal : Peak (normalPdf 0 1) := by
  have hq : 0 < √(2 * Real.pi) := Real.sqrt_pos.2 (by positivity)
  have e : ∀ x, normalPdf 0 1 x = 1 / √(2 * Real.pi) * Real.exp (-x ^ 2 / 2) := by
    intro x; simp [normalPdf]
  have hp : ∀ x, 0 < normalPdf 0 1 x := fun x => by rw [e]; positivity
  refine peak_of (by simp only [funext e]; fun_prop) hp (fun x => by rw [e, e, neg_sq]) ?_ (normal one_pos 0)
    (A := |Real.log √(2 * Real.pi)|) (B := 1 / 2) fun x => ?_
  · intro x y h0 h
    rw [e, e]
    refine mul_lt_mul_of_pos_left (Real.exp_lt_exp.2 ?_) (by positivity)
    nlinarith
  · rw [e, Real.log_mul (by positivity) (Real.exp_pos _).ne', Real.log_exp, one_div, Real.log_inv]
    refine (abs_add_le _ _).trans ?_
    rw [abs_neg, neg_div, abs_neg, abs_of_nonneg (show 0 ≤ x ^ 2 / 2 by positivity)]
    linarith

theorem peak_laplace : Peak (laplacePdf 0 1) := by
  have e : ∀ x, laplacePdf 0 1 x = 1 / 2 * Real.exp (-|x|) := by
    intro x; simp [laplacePdf]
  have hp : ∀ x, 0 < laplacePdf 0 1 x := fun x => by rw [e]; positivity
  refine peak_of (by simp only [funext e]; fun_prop) hp (fun x => by rw [e, e, abs_neg]) ?_ (laplace one_pos 0)
    (A := Real.log 2 + 1 / 2) (B := 1 / 2) fun x => ?_
  · intro x y h0 h
    rw [e, e, abs_of_nonneg h0, abs_of_nonneg (h0.trans h.le)]
    exact mul_lt_mul_of_pos_left (Real.exp_lt_exp.2 (by linarith)) (by norm_num)
  · rw [e, Real.log_mul (by norm_num) (Real.exp_pos _).ne', Real.log_exp, one_div, Real.log_inv]
    refine (abs_add_le _ _).trans ?_
    rw [abs_neg, abs_neg, abs_abs, abs_of_pos (Real.log_pos (by norm_num))]
    nlinarith [sq_nonneg (|x| - 1), sq_abs x]

theorem peak_logistic : Peak (logisticPdf 0 1) := by
  have e : ∀ x, logisticPdf 0 1 x = Real.exp (-x) / (1 + Real.exp (-x)) ^ 2 := by
    intro x; simp [logisticPdf]
  have hp : ∀ x, 0 < logisticPdf 0 1 x := fun x => by rw [e]; positivity
  have hev : ∀ x, logisticPdf 0 1 (-x) = logisticPdf 0 1 x := by
    intro x
    rw [e, e, neg_neg, Real.exp_neg]
    have := Real.exp_pos x
    field_simp
    ring
  have hl : ∀ x, 0 ≤ x → |Real.log (logisticPdf 0 1 x)| ≤ x + 2 * Real.log 2 := by
    intro x hx
    have h1 : 0 < 1 + Real.exp (-x) := by positivity
    have h2 : 0 ≤ Real.log (1 + Real.exp (-x)) := Real.log_nonneg (by linarith [Real.exp_pos (-x)])
    have h3 : Real.log (1 + Real.exp (-x)) ≤ Real.log 2 := by
      refine Real.log_le_log h1 ?_
      have : Real.exp (-x) ≤ 1 := Real.exp_le_one_iff.2 (by linarith)
      linarith
    rw [e, Real.log_div (Real.exp_pos _).ne' (by positivity), Real.log_exp, Real.log_pow, abs_le]
    push_cast
    constructor <;> linarith
  refine peak_of (by simp only [funext e]; exact Continuous.div (by fun_prop) (by fun_prop) fun x => by positivity) hp hev ?_
    (logistic one_pos 0) (A := 2 * Real.log 2 + 1 / 2) (B := 1 / 2) fun x => ?_
  · intro x y h0 h
    rw [e, e]
    have a1 := Real.exp_pos (-x)
    have a2 := Real.exp_pos (-y)
    have h1 : Real.exp (-y) < Real.exp (-x) := Real.exp_lt_exp.2 (by linarith)
    have h2 : Real.exp (-x) ≤ 1 := Real.exp_le_one_iff.2 (by linarith)
    rw [div_lt_div_iff₀ (by positivity) (by positivity)]
    generalize Real.exp (-x) = a at *
    generalize Real.exp (-y) = b at *
    have : a * (1 + b) ^ 2 - b * (1 + a) ^ 2 = (a - b) * (1 - a * b) := by ring
    have : 0 < (a - b) * (1 - a * b) := mul_pos (by linarith) (by nlinarith)
    linarith
  · have : |Real.log (logisticPdf 0 1 x)| ≤ |x| + 2 * Real.log 2 := by
      rcases le_total 0 x with hx | hx
      · rw [abs_of_nonneg hx]; exact hl x hx
      · rw [← hev, abs_of_nonpos hx]; exact hl (-x) (by linarith)
    nlinarith [sq_nonneg (|x| - 1), sq_abs x]

private theorem peak_kernel {a : ℝ} (ha : 1 / 2 < a) :
    Peak fun x => Real.Gamma a / (√Real.pi * Real.Gamma (a - 1 / 2)) * (1 + x ^ 2) ^ (-a) := by
  have hG := Real.Gamma_pos_of_pos (show 0 < a by linarith)
  have hH := Real.Gamma_pos_of_pos (show 0 < a - 1 / 2 by linarith)
  have hpi := Real.sqrt_pos.mpr Real.pi_pos
  set c := Real.Gamma a / (√Real.pi * Real.Gamma (a - 1 / 2)) with hc
  have c0 : 0 < c := by positivity
  have q : ∀ x : ℝ, 0 < 1 + x ^ 2 := fun x => by positivity
  have i0 := cauchyInt ha
  have hcont : ∀ r : ℝ, Continuous fun x : ℝ => (1 + x ^ 2) ^ r := fun r =>
    Continuous.rpow_const (by fun_prop) fun x => Or.inl (q x).ne'
  refine ⟨(hcont _).const_mul _ |>.congr fun x => rfl, fun x => by positivity, fun x => by rw [neg_sq], ?_, i0.1.const_mul c, ?_, ?_⟩
  · intro x y h0 h
    refine mul_lt_mul_of_pos_left ?_ c0
    exact Real.rpow_lt_rpow_of_neg (q x) (by nlinarith) (by linarith)
  · rw [integral_const_mul, i0.2, hc]
    generalize Real.Gamma (a - 1 / 2) = b at *
    field_simp
  · set r := (a - 1 / 2) / 2 with hr
    have r0 : 0 < r := by rw [hr]; linarith
    have i1 := cauchyInt (show 1 / 2 < a - r by rw [hr]; linarith)
    refine ((i0.1.const_mul (c * |Real.log c|)).add (i1.1.const_mul (c * a / r))).mono' ?_ (Eventually.of_forall fun x => ?_)
    · refine Continuous.aestronglyMeasurable ?_
      have : Continuous fun x : ℝ => c * (1 + x ^ 2) ^ (-a) := (hcont (-a)).const_mul c
      exact this.mul (this.log fun x => (mul_pos c0 (Real.rpow_pos_of_pos (q x) _)).ne')
    · have p := Real.rpow_pos_of_pos (q x) (-a)
      have l0 : 0 ≤ Real.log (1 + x ^ 2) := Real.log_nonneg (by nlinarith [sq_nonneg x])
      have l1 : Real.log (1 + x ^ 2) ≤ (1 + x ^ 2) ^ r / r := Real.log_le_rpow_div (q x).le r0
      have e2 : (1 + x ^ 2) ^ (-(a - r)) = (1 + x ^ 2) ^ (-a) * (1 + x ^ 2) ^ r := by
        rw [← Real.rpow_add (q x)]; congr 1; ring
      rw [Real.norm_eq_abs, abs_mul, abs_of_pos (mul_pos c0 p), Real.log_mul c0.ne' p.ne', Real.log_rpow (q x)]
      simp only [Pi.add_apply]
      rw [e2]
      have : |Real.log c + -a * Real.log (1 + x ^ 2)| ≤ |Real.log c| + a * ((1 + x ^ 2) ^ r / r) := by
        refine (abs_add_le _ _).trans ?_
        rw [abs_mul, abs_neg, abs_of_pos (show 0 < a by linarith), abs_of_nonneg l0]
        have := mul_le_mul_of_nonneg_left l1 (show 0 ≤ a by linarith)
        linarith
      calc c * (1 + x ^ 2) ^ (-a) * |Real.log c + -a * Real.log (1 + x ^ 2)|
          ≤ c * (1 + x ^ 2) ^ (-a) * (|Real.log c| + a * ((1 + x ^ 2) ^ r / r)) :=
            mul_le_mul_of_nonneg_left this (mul_pos c0 p).le
        _ = _ := by ring

theorem peak_student {n : ℝ} (hn : 0 < n) : Peak (studentPdf n 0 1) := by
  have h := peak_scaled (peak_kernel (show 1 / 2 < (n + 1) / 2 by linarith)) (Real.sqrt_pos.2 hn)
  have e : moved (fun x => Real.Gamma ((n + 1) / 2) / (√Real.pi * Real.Gamma ((n + 1) / 2 - 1 / 2)) *
      (1 + x ^ 2) ^ (-((n + 1) / 2))) 0 √n = studentPdf n 0 1 := by
    funext x
    unfold moved studentPdf
    simp only [sub_zero, div_one]
    rw [div_pow, Real.sq_sqrt hn.le, show (n + 1) / 2 - 1 / 2 = n / 2 by ring, Real.sqrt_mul hn.le,
      show -((n + 1) / 2) = -(n + 1) / 2 by ring]
    have := Real.sqrt_pos.2 hn
    have := Real.sqrt_pos.2 Real.pi_pos
    have := Real.Gamma_pos_of_pos (show 0 < n / 2 by linarith)
    field_simp
  rwa [e] at h

theorem cauchy_student (x : ℝ) : cauchyPdf 0 1 x = studentPdf 1 0 1 x := by
  have : 0 < 1 + x ^ 2 := by positivity
  unfold cauchyPdf studentPdf
  simp only [sub_zero, div_one, mul_one, one_mul]
  rw [show ((1 : ℝ) + 1) / 2 = 1 by norm_num, Real.Gamma_one, Real.Gamma_one_half_eq, Real.mul_self_sqrt Real.pi_pos.le,
    show -((1 : ℝ) + 1) / 2 = -1 by norm_num, Real.rpow_neg_one]
  field_simp

theorem peak_fam (F : PeakFam) (h : F.Ok) : Peak (F.pdf 0 1) := by
  cases F with
  | normal => exact peak_normal
  | laplace => exact peak_laplace
  | logistic => exact peak_logistic
  | cauchy =>
    rw [show PeakFam.pdf .cauchy 0 1 = studentPdf 1 0 1 from funext cauchy_student]
    exact peak_student one_pos
  | studentT n => exact peak_student h

theorem fam_moved (F : PeakFam) (m : ℝ) {s : ℝ} (hs : 0 < s) : F.pdf m s = moved (F.pdf 0 1) m s := by
  funext x
  cases F <;> simp only [PeakFam.pdf, moved]
  · unfold normalPdf
    have : √(2 * Real.pi) ≠ 0 := (Real.sqrt_pos.2 (by positivity)).ne'
    rw [sub_zero, one_mul, one_pow, mul_one, div_pow, ← neg_div, div_div, mul_comm (s ^ 2) 2]
    field_simp
  · unfold laplacePdf
    rw [sub_zero, mul_one, abs_div, abs_of_pos hs, div_one, ← neg_div]
    field_simp
  · unfold logisticPdf
    simp only [sub_zero, div_one, one_mul]
    field_simp
  · unfold cauchyPdf
    simp only [sub_zero, div_one, mul_one]
    field_simp
  · unfold studentPdf
    simp only [sub_zero, div_one, mul_one]
    field_simp

end Verif.LocScale
