import Verif.Spec.HalfScale
import Verif.Lemmas.LocScale
import Mathlib.Analysis.SpecialFunctions.Integrals.Basic
import Mathlib.Analysis.Calculus.Deriv.MeanValue

/-!
# Interval probabilities of densities folded at zero
-/

namespace Verif.HalfScale
open MeasureTheory Verif.Spec Verif.Law Verif.LocScale Set Filter Topology

/-- the density of the absolute value, stretched by `s` -/
noncomputable def folded (g : ℝ → ℝ) (s x : ℝ) : ℝ := if x < 0 then 0 else 2 * g (x / s) / s

/-- stretching the argument matters more the further out -/
def Thin (g : ℝ → ℝ) : Prop := ∀ c x y, 1 < c → 0 < x → x < y → g x * g (c * y) < g y * g (c * x)

variable {g : ℝ → ℝ}

theorem around_twice (hg : Peak g) (k : ℝ) : around g 0 k = 2 * ∫ x in (0 : ℝ)..k, g x := by
  unfold around
  rw [zero_sub, zero_add, ← intervalIntegral.integral_add_adjacent_intervals (ii hg (-k) 0) (ii hg 0 k)]
  have := intervalIntegral.integral_comp_neg (a := 0) (b := k) g
  rw [neg_zero] at this
  rw [← this, intervalIntegral.integral_congr fun x _ => hg.even x]
  ring

theorem around_deriv (hg : Peak g) (x : ℝ) : HasDerivAt (around g 0) (2 * g x) x := by
  rw [show around g 0 = fun k => 2 * ∫ y in (0 : ℝ)..k, g y from funext (around_twice hg)]
  exact (intervalIntegral.integral_hasDerivAt_right (ii hg 0 x) hg.cont.stronglyMeasurable.stronglyMeasurableAtFilter
    hg.cont.continuousAt).const_mul 2

theorem folded_eq (g : ℝ → ℝ) (s : ℝ) : folded g s = (Ici (0 : ℝ)).indicator fun x => 2 * moved g 0 s x := by
  funext x
  unfold folded moved
  by_cases h : x < 0
  · rw [if_pos h, indicator_of_notMem (by simpa using h)]
  · rw [if_neg h, indicator_of_mem (by simpa using h), sub_zero]; ring

theorem folded_meas (hg : Peak g) (s : ℝ) : Measurable (folded g s) := by
  rw [folded_eq]
  exact ((moved_meas hg 0 s).const_mul 2).indicator measurableSet_Ici

theorem folded_nonneg (hg : Peak g) {s : ℝ} (hs : 0 < s) (x : ℝ) : 0 ≤ folded g s x := by
  unfold folded
  split_ifs
  · exact le_rfl
  · have := hg.nonneg (x / s); positivity

theorem folded_int (hg : Peak g) {s : ℝ} (hs : 0 < s) : Integrable (folded g s) := by
  rw [folded_eq]
  exact ((moved_int hg 0 hs).const_mul 2).indicator measurableSet_Ici

/-- the probability of an interval, in units of the scale -/
theorem mass_folded (hg : Peak g) {s : ℝ} (hs : 0 < s) {l u : ℝ} (hl : 0 ≤ l) (h : l ≤ u) :
    massOf (folded g s) l u = around g 0 (u / s) - around g 0 (l / s) := by
  rw [massOf_eq (folded_meas hg s) (folded_nonneg hg hs) (folded_int hg hs) h, around_twice hg, around_twice hg, ← mul_sub,
    intervalIntegral.integral_interval_sub_left (ii hg _ _) (ii hg _ _)]
  have e : ∫ x in l..u, folded g s x = ∫ x in l..u, 2 / s * g (x / s) := by
    refine intervalIntegral.integral_congr fun x hx => ?_
    rw [uIcc_of_le h] at hx
    unfold folded
    rw [if_neg (by linarith [hx.1])]
    ring
  rw [e, intervalIntegral.integral_const_mul, intervalIntegral.integral_comp_div g hs.ne', smul_eq_mul]
  field_simp

theorem folded_total (hg : Peak g) {s : ℝ} (hs : 0 < s) : ∫ x, folded g s x = 1 := by
  have key : ∫ x, folded g 1 x = 1 := by
    rw [folded_eq, integral_indicator measurableSet_Ici, integral_Ici_eq_integral_Ioi, integral_const_mul]
    have h2 := integral_add_compl (measurableSet_Iic (a := (0 : ℝ))) hg.int
    rw [compl_Iic, hg.one] at h2
    have h3 := upTo_zero hg
    unfold upTo at h3
    have e : ∀ x, moved g 0 1 x = g x := fun x => by simp [moved]
    simp only [e]
    linarith
  have e : ∀ x, folded g s x = folded g 1 ((x - 0) / s) / s := by
    intro x
    unfold folded
    by_cases h : x < 0
    · rw [if_pos h, if_pos (by rw [sub_zero]; exact div_neg_of_neg_of_pos h hs), zero_div]
    · rw [if_neg h, if_neg (by rw [sub_zero, not_lt]; exact div_nonneg (not_lt.1 h) hs.le), sub_zero, div_one, div_one]
  have i2 := (show HI (folded g 1) 1 from ⟨folded_int hg one_pos, key⟩).affine 0 hs
  simp only [e]
  rw [integral_div, i2.2]; field_simp

theorem folded_prob (hg : Peak g) {s : ℝ} (hs : 0 < s) : IsProbabilityMeasure (ofPdf (folded g s)) := by
  constructor
  unfold ofPdf
  rw [withDensity_apply _ MeasurableSet.univ, Measure.restrict_univ, ← ofReal_integral_eq_lintegral_ofReal
    (folded_int hg hs) (Eventually.of_forall (folded_nonneg hg hs)), folded_total hg hs, ENNReal.ofReal_one]

/-- the probability up to `x` -/
theorem cdf_folded (hg : Peak g) {s : ℝ} (hs : 0 < s) {x : ℝ} (hx : 0 ≤ x) :
    (ofPdf (folded g s)).real (Iic x) = around g 0 (x / s) := by
  have h := mass_folded hg hs le_rfl hx
  rw [zero_div, show around g 0 0 = 0 by simp [around], sub_zero] at h
  rw [← h, massOf]
  have := folded_prob hg hs
  have e : Iic x = Iio 0 ∪ Icc 0 x := (Iio_union_Icc_eq_Iic hx).symm
  rw [e, measureReal_union (by
    rw [Set.disjoint_left]; intro y h1 h2; exact absurd h1 (not_lt.2 h2.1)) measurableSet_Icc]
  have z : (ofPdf (folded g s)).real (Iio 0) = 0 := by
    unfold Measure.real ofPdf
    rw [withDensity_apply _ measurableSet_Iio, setLIntegral_congr_fun measurableSet_Iio
      (g := fun _ => (0 : ENNReal)) (fun y hy => by simp only [folded]; rw [if_pos (show y < 0 from hy), ENNReal.ofReal_zero])]
    simp
  rw [z, zero_add]

/-- stretching adds the logarithm of the scale to the entropy -/
theorem entropy_folded (hg : Peak g) {s : ℝ} (hs : 0 < s) :
    entropyOf (folded g s) = Real.log s + entropyOf (folded g 1) := by
  unfold entropyOf
  have e0 : ∀ x, folded g s x = folded g 1 ((x - 0) / s) / s := by
    intro x
    unfold folded
    by_cases h : x < 0
    · rw [if_pos h, if_pos (by rw [sub_zero]; exact div_neg_of_neg_of_pos h hs), zero_div]
    · rw [if_neg h, if_neg (by rw [sub_zero, not_lt]; exact div_nonneg (not_lt.1 h) hs.le), sub_zero, div_one, div_one]
  have e : ∀ x, folded g s x * Real.log (folded g s x) =
      (folded g 1 ((x - 0) / s) * Real.log (folded g 1 ((x - 0) / s)) - Real.log s * folded g 1 ((x - 0) / s)) / s := by
    intro x
    rw [e0]
    rcases eq_or_ne (folded g 1 ((x - 0) / s)) 0 with h | h
    · rw [h]; simp
    · rw [Real.log_div h hs.ne']; ring
  simp only [e]
  have int : Integrable fun x => folded g 1 x * Real.log (folded g 1 x) := by
    have : (fun x => folded g 1 x * Real.log (folded g 1 x)) =
        (Ici (0 : ℝ)).indicator fun x => 2 * Real.log 2 * g x + 2 * (g x * Real.log (g x)) := by
      funext x
      unfold folded
      by_cases h : x < 0
      · rw [if_pos h, indicator_of_notMem (by simpa using h)]; simp
      · rw [if_neg h, indicator_of_mem (by simpa using h), div_one, div_one,
          Real.log_mul two_ne_zero (peak_pos hg x).ne']
        ring
    rw [this]
    exact ((hg.int.const_mul _).add (hg.ent.const_mul 2)).indicator measurableSet_Ici
  have i1 := (show HI (fun x => folded g 1 x * Real.log (folded g 1 x)) _ from ⟨int, rfl⟩).affine 0 hs
  have i2 := (show HI (folded g 1) 1 from ⟨folded_int hg one_pos, folded_total hg one_pos⟩).affine 0 hs
  rw [integral_div, integral_sub i1.1 (i2.1.const_mul _), integral_const_mul, i1.2, i2.2]
  field_simp
  ring

/-! ### The interval from `x` to `c x` -/

/-- the probability between `x` and `c x` -/
noncomputable def gap (g : ℝ → ℝ) (c x : ℝ) : ℝ := around g 0 (c * x) - around g 0 x

theorem gap_deriv (hg : Peak g) (c x : ℝ) : HasDerivAt (gap g c) (2 * (c * g (c * x) - g x)) x := by
  have h1 : HasDerivAt (fun x : ℝ => c * x) c x := by simpa using (hasDerivAt_id x).const_mul c
  have h := ((around_deriv hg (c * x)).comp x h1).sub (around_deriv hg x)
  refine h.congr_deriv ?_
  ring

theorem gap_cont (hg : Peak g) (c : ℝ) : Continuous (gap g c) :=
  continuous_iff_continuousAt.2 fun x => (gap_deriv hg c x).continuousAt

theorem gap_zero (g : ℝ → ℝ) (c : ℝ) : gap g c 0 = 0 := by simp [gap]

theorem gap_lim (hg : Peak g) {c : ℝ} (hc : 1 < c) : Tendsto (gap g c) atTop (𝓝 0) := by
  have h1 := (around_lim hg).comp (tendsto_id.const_mul_atTop (show 0 < c by linarith))
  have := h1.sub (around_lim hg)
  rw [sub_self] at this
  exact this

theorem gap_pos (hg : Peak g) {c x : ℝ} (hc : 1 < c) (hx : 0 < x) : 0 < gap g c x :=
  sub_pos.2 (around_mono hg 0 (by nlinarith))

/-- where the peak is, the probability rises before and falls after -/
theorem gap_at (hg : Peak g) (ht : Thin g) {c x₀ : ℝ} (hc : 1 < c) (h0 : 0 < x₀) (he : c * g (c * x₀) = g x₀) :
    StrictMonoOn (gap g c) (Icc 0 x₀) ∧ StrictAntiOn (gap g c) (Ici x₀) := by
  have p0 := peak_pos hg (c * x₀)
  constructor
  · refine strictMonoOn_of_deriv_pos (convex_Icc _ _) (gap_cont hg c).continuousOn fun x hx => ?_
    rw [interior_Icc] at hx
    rw [(gap_deriv hg c x).deriv]
    have h := ht c x x₀ hc hx.1 hx.2
    rw [← he] at h
    nlinarith
  · refine strictAntiOn_of_deriv_neg (convex_Ici _) (gap_cont hg c).continuousOn fun x hx => ?_
    rw [interior_Ici] at hx
    rw [(gap_deriv hg c x).deriv]
    have h := ht c x₀ x hc h0 hx
    rw [← he] at h
    nlinarith

theorem gap_peak (hg : Peak g) {c : ℝ} (hc : 1 < c) : ∃ x₀, 0 < x₀ ∧ c * g (c * x₀) = g x₀ := by
  have : ∃ x, 0 < x ∧ c * g (c * x) < g x := by
    by_contra hn
    push Not at hn
    have mono : MonotoneOn (gap g c) (Ici 0) := by
      refine monotoneOn_of_deriv_nonneg (convex_Ici _) (gap_cont hg c).continuousOn
        (fun x _ => (gap_deriv hg c x).differentiableAt.differentiableWithinAt) fun x hx => ?_
      rw [interior_Ici] at hx
      rw [(gap_deriv hg c x).deriv]
      linarith [hn x hx]
    have h1 := gap_pos hg hc one_pos
    have h2 : gap g c 1 ≤ 0 := by
      refine ge_of_tendsto (gap_lim hg hc) ((eventually_ge_atTop 1).mono fun x hx => ?_)
      exact mono (by norm_num) (by simp only [mem_Ici]; linarith) hx
    linarith
  obtain ⟨x, hx, hlt⟩ := this
  have g0 := peak_pos hg 0
  have cont : Continuous fun y => c * g (c * y) - g y := by
    have h := hg.cont
    fun_prop
  obtain ⟨x₀, h1, h2⟩ := intermediate_value_Icc' hx.le cont.continuousOn (show (0 : ℝ) ∈ _ from
    ⟨by linarith, by simp only [mul_zero]; nlinarith⟩)
  simp only at h2
  refine ⟨x₀, ?_, by linarith⟩
  rcases h1.1.lt_or_eq with h | h
  · exact h
  · subst h
    rw [mul_zero] at h2
    nlinarith

/-! ### The families -/

theorem thin_normal : Thin (normalPdf 0 1) := by
  intro c x y hc hx hxy
  have e : ∀ x, normalPdf 0 1 x = 1 / √(2 * Real.pi) * Real.exp (-x ^ 2 / 2) := by
    intro x; simp [normalPdf]
  have hq : 0 < 1 / √(2 * Real.pi) := by have := Real.pi_pos; positivity
  rw [e, e, e, e, mul_mul_mul_comm, mul_mul_mul_comm (1 / √(2 * Real.pi)) (Real.exp (-y ^ 2 / 2)), ← Real.exp_add,
    ← Real.exp_add]
  refine mul_lt_mul_of_pos_left (Real.exp_lt_exp.2 ?_) (by positivity)
  have : 0 < (c ^ 2 - 1) * (y ^ 2 - x ^ 2) := mul_pos (by nlinarith) (by nlinarith)
  nlinarith

theorem thin_laplace : Thin (laplacePdf 0 1) := by
  intro c x y hc hx hxy
  have e : ∀ x, 0 < x → laplacePdf 0 1 x = 1 / 2 * Real.exp (-x) := by
    intro x hx; simp [laplacePdf, abs_of_pos hx]
  have cx : 0 < c * x := by nlinarith
  have cy : 0 < c * y := by nlinarith
  rw [e _ hx, e _ cx, e _ cy, e _ (hx.trans hxy), mul_mul_mul_comm, mul_mul_mul_comm (1 / 2) (Real.exp (-y)), ← Real.exp_add,
    ← Real.exp_add]
  refine mul_lt_mul_of_pos_left (Real.exp_lt_exp.2 ?_) (by norm_num)
  nlinarith [mul_pos (sub_pos.2 hc) (sub_pos.2 hxy)]

theorem thin_student {n : ℝ} (hn : 0 < n) : Thin (studentPdf n 0 1) := by
  intro c x y hc hx hxy
  set k := Real.Gamma ((n + 1) / 2) / (√(n * Real.pi) * Real.Gamma (n / 2)) with hk
  have k0 : 0 < k := by
    have h1 := Real.Gamma_pos_of_pos (show 0 < (n + 1) / 2 by linarith)
    have h2 := Real.Gamma_pos_of_pos (show 0 < n / 2 by linarith)
    have h3 := Real.pi_pos
    positivity
  have e : ∀ x, studentPdf n 0 1 x = k * (1 + x ^ 2 / n) ^ (-(n + 1) / 2) := by
    intro x; simp [studentPdf, hk]
  have q : ∀ x : ℝ, 0 < 1 + x ^ 2 / n := fun x => by positivity
  rw [e, e, e, e, mul_mul_mul_comm, mul_mul_mul_comm k ((1 + y ^ 2 / n) ^ (-(n + 1) / 2)), ← Real.mul_rpow (q _).le (q _).le,
    ← Real.mul_rpow (q _).le (q _).le]
  refine mul_lt_mul_of_pos_left ?_ (by positivity)
  refine Real.rpow_lt_rpow_of_neg (mul_pos (q _) (q _)) ?_ (by linarith)
  have : 0 < (c ^ 2 - 1) * (y ^ 2 - x ^ 2) / n := div_pos (mul_pos (by nlinarith) (by nlinarith)) hn
  have e1 : (1 + x ^ 2 / n) * (1 + (c * y) ^ 2 / n) - (1 + y ^ 2 / n) * (1 + (c * x) ^ 2 / n) =
    (c ^ 2 - 1) * (y ^ 2 - x ^ 2) / n := by field_simp; ring
  linarith

/-- the symmetric density whose fold is the family -/
noncomputable def unfolded : HalfFam → ℝ → ℝ
  | .exponential => laplacePdf 0 1
  | .halfNormal => normalPdf 0 1
  | .halfCauchy => studentPdf 1 0 1
  | .halfStudentT n => studentPdf n 0 1

theorem unfolded_peak (F : HalfFam) (h : F.Ok) : Peak (unfolded F) := by
  cases F with
  | exponential => exact peak_laplace
  | halfNormal => exact peak_normal
  | halfCauchy => exact peak_student one_pos
  | halfStudentT n => exact peak_student h

theorem unfolded_thin (F : HalfFam) (h : F.Ok) : Thin (unfolded F) := by
  cases F with
  | exponential => exact thin_laplace
  | halfNormal => exact thin_normal
  | halfCauchy => exact thin_student one_pos
  | halfStudentT n => exact thin_student h

theorem half_folded (F : HalfFam) (hF : F.Ok) {s : ℝ} (hs : 0 < s) : F.pdf s = folded (unfolded F) s := by
  funext x
  unfold folded
  by_cases h : x < 0
  · rw [if_pos h]
    cases F <;> simp [HalfFam.pdf, exponentialPdf, halfNormalPdf, halfCauchyPdf, halfStudentPdf, h]
  rw [if_neg h]
  have hx := not_lt.1 h
  cases F with
  | exponential =>
    simp only [HalfFam.pdf, exponentialPdf, unfolded, laplacePdf, if_neg h, sub_zero, mul_one, div_one,
      abs_of_nonneg (div_nonneg hx hs.le)]
    rw [show -(1 / s * x) = -(x / s) by ring]
    ring
  | halfNormal =>
    simp only [HalfFam.pdf, halfNormalPdf, unfolded, normalPdf, if_neg h, sub_zero, mul_one, one_mul, one_pow]
    rw [show -(x / s) ^ 2 / 2 = -x ^ 2 / (2 * s ^ 2) by rw [div_pow]; field_simp, Real.sqrt_mul two_pos.le]
    have h2 := Real.sqrt_pos.2 (two_pos (α := ℝ))
    have h3 := Real.sqrt_pos.2 Real.pi_pos
    have h4 := Real.mul_self_sqrt (two_pos (α := ℝ)).le
    field_simp
    nlinarith
  | halfCauchy =>
    simp only [HalfFam.pdf, halfCauchyPdf, unfolded, if_neg h]
    rw [← cauchy_student]
    unfold cauchyPdf
    simp only [sub_zero, div_one, mul_one]
    have := Real.pi_pos
    field_simp
  | halfStudentT n =>
    have hn : 0 < n := hF
    simp only [HalfFam.pdf, halfStudentPdf, unfolded, studentPdf, if_neg h, sub_zero, div_one, mul_one]
    rw [Real.sqrt_mul (by have := Real.pi_pos; positivity), Real.sqrt_sq hs.le, show -((n + 1) / 2) = -(n + 1) / 2 by ring,
      show 1 + 1 / n * (x ^ 2 / s ^ 2) = 1 + (x / s) ^ 2 / n by rw [div_pow]; ring]
    have := Real.sqrt_pos.2 (show 0 < n * Real.pi by have := Real.pi_pos; positivity)
    have := Real.Gamma_pos_of_pos (show 0 < n / 2 by linarith)
    field_simp

/-- closed forms -/
theorem around_laplace {x : ℝ} (hx : 0 ≤ x) : around (laplacePdf 0 1) 0 x = 1 - Real.exp (-x) := by
  rw [around_twice peak_laplace]
  have e : ∫ y in (0 : ℝ)..x, laplacePdf 0 1 y = ∫ y in (0 : ℝ)..x, 1 / 2 * Real.exp (-y) := by
    refine intervalIntegral.integral_congr fun y hy => ?_
    rw [uIcc_of_le hx] at hy
    simp [laplacePdf, abs_of_nonneg hy.1]
  rw [e, intervalIntegral.integral_const_mul, intervalIntegral.integral_comp_neg (fun y => Real.exp y), integral_exp]
  simp

theorem around_cauchy (x : ℝ) : around (studentPdf 1 0 1) 0 x = 2 / Real.pi * Real.arctan x := by
  rw [around_twice (peak_student one_pos)]
  have e : ∫ y in (0 : ℝ)..x, studentPdf 1 0 1 y = ∫ y in (0 : ℝ)..x, 1 / Real.pi * (1 / (1 + y ^ 2)) := by
    refine intervalIntegral.integral_congr fun y _ => ?_
    rw [← cauchy_student]
    unfold cauchyPdf
    simp only [sub_zero, div_one, mul_one]
    have := Real.pi_pos
    field_simp
  rw [e, intervalIntegral.integral_const_mul, integral_one_div_one_add_sq, Real.arctan_zero]
  ring

end Verif.HalfScale
