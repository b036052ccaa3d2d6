import Verif.Lemmas.PeakGiven
import Verif.Spec.LogScale
import Verif.Lemmas.QuartileShape
import Mathlib.Analysis.Convex.Deriv
import Mathlib.Analysis.SpecialFunctions.Log.Monotone
import Mathlib.Analysis.SpecialFunctions.Log.NegMulLog
import Mathlib.Topology.Order.MonotoneContinuity

/-!
# Lemmas for C131
-/

namespace Verif.LogScale
open MeasureTheory Verif Verif.Spec Verif.Law Set Filter Topology Verif.LocScale Verif.HalfScale

variable {g : ℝ → ℝ}

/-- at the middle at most the mean -/
def MidConvex (f : ℝ → ℝ) : Prop := ∀ x y, f ((x + y) / 2) ≤ (f x + f y) / 2

theorem upTo_lt_one (hg : Peak g) (x : ℝ) : upTo g x < 1 := by
  rw [upTo_around hg]; linarith [around_lt_one hg x]

theorem upTo_pos (hg : Peak g) (x : ℝ) : 0 < upTo g x := by
  have := upTo_neg hg x
  linarith [upTo_lt_one hg (-x)]

theorem upTo_deriv (hg : Peak g) (x : ℝ) : HasDerivAt (upTo g) (g x) x := by
  have e : upTo g = fun x => 1 / 2 + around g 0 x / 2 := funext (upTo_around hg)
  rw [e]
  exact (((around_deriv hg x).div_const 2).const_add (1 / 2)).congr_deriv (by ring)

theorem upTo_cont (hg : Peak g) : Continuous (upTo g) :=
  continuous_iff_continuousAt.2 fun x => (upTo_deriv hg x).continuousAt

/-- the interval halfway between two intervals of the same probability has at least that probability -/
theorem span_quasi (hg : Peak g) (hc : MidConvex fun x => (g x)⁻¹) {a b a' b' p : ℝ} (h : a < b)
    (e : upTo g b - upTo g a = p) (e' : upTo g b' - upTo g a' = p) :
    p ≤ upTo g ((b + b') / 2) - upTo g ((a + a') / 2) := by
  have mono := upTo_mono hg
  have ex : ∀ q, 0 < q ∧ q < 1 → ∃ x, upTo g x = q := fun q hq => upTo_exists hg hq.1 hq.2
  choose! fi hfi using ex
  have inv : ∀ x, fi (upTo g x) = x := fun x => mono.injective (hfi _ ⟨upTo_pos hg x, upTo_lt_one hg x⟩)
  have fmono : StrictMonoOn fi (Ioo 0 1) := by
    intro q hq r hr hqr
    rw [← mono.lt_iff_lt, hfi q hq, hfi r hr]
    exact hqr
  have fcont : ∀ q ∈ Ioo (0 : ℝ) 1, ContinuousAt fi q := by
    intro q hq
    refine fmono.continuousAt_of_image_mem_nhds (Ioo_mem_nhds hq.1 hq.2) ?_
    have : fi '' Ioo 0 1 = univ :=
      eq_univ_of_forall fun x => ⟨upTo g x, ⟨upTo_pos hg x, upTo_lt_one hg x⟩, inv x⟩
    rw [this]
    exact univ_mem
  have fder : ∀ q ∈ Ioo (0 : ℝ) 1, HasDerivAt fi (g (fi q))⁻¹ q := by
    intro q hq
    refine HasDerivAt.of_local_left_inverse (fcont q hq) (upTo_deriv hg (fi q)) (peak_pos hg _).ne' ?_
    filter_upwards [Ioo_mem_nhds hq.1 hq.2] with r hr
    exact hfi r hr
  set d := upTo g a' - upTo g a with hd
  have rng : ∀ x ∈ Icc a b, upTo g x + d ∈ Ioo (0 : ℝ) 1 := by
    intro x hx
    have h1 := mono.monotone hx.1
    have h2 := mono.monotone hx.2
    have h3 := upTo_pos hg a'
    have h4 := upTo_lt_one hg b'
    constructor <;> linarith
  set φ : ℝ → ℝ := fun x => fi (upTo g x + d) with hφ
  have φa : φ a = a' := by rw [hφ]; simp only [hd]; rw [add_sub_cancel, inv]
  have φb : φ b = b' := by
    rw [hφ]; simp only [hd]
    rw [show upTo g b + (upTo g a' - upTo g a) = upTo g b' by linarith, inv]
  have φd : ∀ x ∈ Icc a b, HasDerivAt φ ((g (φ x))⁻¹ * g x) x := fun x hx =>
    (fder _ (rng x hx)).comp x ((upTo_deriv hg x).add_const d)
  have Kd : ∀ x ∈ Icc a b, HasDerivAt (fun x => upTo g ((x + φ x) / 2) - upTo g x)
      (g ((x + φ x) / 2) * ((1 + (g (φ x))⁻¹ * g x) / 2) - g x) x := fun x hx =>
    ((upTo_deriv hg _).comp x (((hasDerivAt_id x).add (φd x hx)).div_const 2)).sub (upTo_deriv hg x)
  have Kmono : MonotoneOn (fun x => upTo g ((x + φ x) / 2) - upTo g x) (Icc a b) := by
    refine monotoneOn_of_deriv_nonneg (convex_Icc _ _) (fun x hx => (Kd x hx).continuousAt.continuousWithinAt)
      (fun x hx => ?_) (fun x hx => ?_)
    · exact (Kd x (interior_subset hx)).differentiableAt.differentiableWithinAt
    · rw [(Kd x (interior_subset hx)).deriv]
      have k : (g ((x + φ x) / 2))⁻¹ ≤ 1 / 2 * (g x)⁻¹ + 1 / 2 * (g (φ x))⁻¹ := by linarith [hc x (φ x)]
      have g1 := peak_pos hg x
      have g3 := peak_pos hg ((x + φ x) / 2)
      have : 1 ≤ g ((x + φ x) / 2) * (1 / 2 * (g x)⁻¹ + 1 / 2 * (g (φ x))⁻¹) := by
        calc 1 = g ((x + φ x) / 2) * (g ((x + φ x) / 2))⁻¹ := (mul_inv_cancel₀ g3.ne').symm
          _ ≤ _ := mul_le_mul_of_nonneg_left k g3.le
      have h2 := mul_le_mul_of_nonneg_left this g1.le
      have h3 : g x * (g ((x + φ x) / 2) * (1 / 2 * (g x)⁻¹ + 1 / 2 * (g (φ x))⁻¹)) =
          g ((x + φ x) / 2) * ((1 + (g (φ x))⁻¹ * g x) / 2) := by
        field_simp
      linarith
  have := Kmono ⟨le_rfl, h.le⟩ ⟨h.le, le_rfl⟩ h.le
  simp only [φa, φb] at this
  linarith

/-- the probability of `[a, b]` with location `m` and scale `s` -/
theorem mass_upTo (hg : Peak g) (m : ℝ) {s : ℝ} (hs : 0 < s) {a b : ℝ} (h : a ≤ b) :
    massOf (moved g m s) a b = upTo g ((b - m) / s) - upTo g ((a - m) / s) := by
  rw [mass_moved hg m hs h]
  unfold around upTo
  rw [intervalIntegral.integral_Iic_sub_Iic hg.int.integrableOn hg.int.integrableOn]
  congr 1 <;> field_simp <;> ring

/-- the probability of `[a, b]` with location `m` and scale `s`, by the distribution function -/
noncomputable def span (g : ℝ → ℝ) (a b m s : ℝ) : ℝ := upTo g ((b - m) / s) - upTo g ((a - m) / s)

theorem span_cont (hg : Peak g) (a b s : ℝ) : Continuous fun m => span g a b m s := by
  have := upTo_cont hg
  unfold span
  fun_prop

/-- moving the location up makes every smaller probability -/
theorem span_raise (hg : Peak g) {a b m s p : ℝ} (hs : 0 < s) (h0 : 0 < p) (hp : p < 1) (h : p ≤ span g a b m s) :
    ∃ m', m ≤ m' ∧ span g a b m' s = p := by
  obtain ⟨x, hx⟩ := upTo_exists hg h0 hp
  set n := max m (b - s * x) with hn
  have h1 : span g a b n s ≤ p := by
    unfold span
    have h2 : (b - n) / s ≤ x := by
      rw [div_le_iff₀ hs]
      have := le_max_right m (b - s * x)
      rw [← hn] at this
      linarith
    have := (upTo_mono hg).monotone h2
    linarith [upTo_pos hg ((a - n) / s)]
  obtain ⟨m', hm', e⟩ := intermediate_value_Icc' (le_max_left m (b - s * x)) (span_cont hg a b s).continuousOn ⟨h1, h⟩
  exact ⟨m', hm'.1, e⟩

theorem span_mirror (hg : Peak g) (a b m s : ℝ) : span g a b (a + b - m) s = span g a b m s := by
  unfold span
  rw [show (b - (a + b - m)) / s = -((a - m) / s) by ring, show (a - (a + b - m)) / s = -((b - m) / s) by ring, upTo_neg hg,
    upTo_neg hg]
  ring

/-- the scale is at most that of the centred one -/
theorem span_scale (hg : Peak g) {a b p k m s : ℝ} (hab : a < b) (hk : 0 < k) (e : around g 0 k = p) (hs : 0 < s)
    (h : span g a b m s = p) : s ≤ (b - a) / (2 * k) := by
  have hul := sub_pos.2 hab
  have h1 : span g a b m s ≤ around g 0 ((b - a) / (2 * s)) := by
    unfold span
    rw [← mass_upTo hg m hs hab.le, mass_moved hg m hs hab.le]
    exact around_le hg _ (by positivity)
  rw [h, ← e, (around_mono hg 0).le_iff_le] at h1
  rw [le_div_iff₀ (by positivity)] at h1 ⊢
  linarith

theorem span_centre (hg : Peak g) {a b k : ℝ} (hab : a < b) (hk : 0 < k) :
    span g a b ((a + b) / 2) ((b - a) / (2 * k)) = around g 0 k := by
  have hul := sub_pos.2 hab
  unfold span
  rw [← mass_upTo hg _ (by positivity) hab.le, mass_moved hg _ (by positivity) hab.le, sub_self, zero_div]
  congr 1
  field_simp

/-- location plus logarithm of the scale has a largest value among the solutions -/
theorem span_best (hg : Peak g) {a b p : ℝ} (hab : a < b) (h0 : 0 < p) (hp : p < 1) :
    ∃ m s, 0 < s ∧ span g a b m s = p ∧ ∀ m' s', 0 < s' → span g a b m' s' = p → m' + Real.log s' ≤ m + Real.log s := by
  have hul := sub_pos.2 hab
  obtain ⟨k, hk, ek⟩ := around_exists hg h0 hp
  obtain ⟨x, hx⟩ := upTo_exists hg h0 hp
  set S := (b - a) / (2 * k) with hS
  have S0 : 0 < S := by positivity
  set m₀ := (a + b) / 2 with hm₀
  have hcen : span g a b m₀ S = p := by rw [hm₀, hS, span_centre hg hab hk, ek]
  set M := b + |x| * S with hM
  have hup : ∀ m s, 0 < s → span g a b m s = p → m ≤ M := by
    intro m s hs he
    have h1 : upTo g x ≤ upTo g ((b - m) / s) := by
      rw [hx, ← he]; unfold span; linarith [upTo_pos hg ((a - m) / s)]
    rw [(upTo_mono hg).le_iff_le, le_div_iff₀ hs] at h1
    have h2 := span_scale hg hab hk ek hs he
    have h3 : -(x * s) ≤ |x| * S := by
      calc -(x * s) ≤ |x| * s := by nlinarith [neg_abs_le x]
        _ ≤ |x| * S := mul_le_mul_of_nonneg_left h2 (abs_nonneg x)
    linarith
  set J := m₀ + Real.log S with hJ
  set σ := Real.exp (J - M) with hσ
  have σ0 : 0 < σ := Real.exp_pos _
  have hcont : Continuous fun q : ℝ × ℝ => span g a b q.1 (max q.2 σ) := by
    have := upTo_cont hg
    unfold span
    refine (this.comp ?_).sub (this.comp ?_)
    · exact (continuous_const.sub continuous_fst).div (continuous_snd.max continuous_const)
        fun q => (lt_of_lt_of_le σ0 (le_max_right _ _)).ne'
    · exact (continuous_const.sub continuous_fst).div (continuous_snd.max continuous_const)
        fun q => (lt_of_lt_of_le σ0 (le_max_right _ _)).ne'
  set K : Set (ℝ × ℝ) := (Icc m₀ M ×ˢ Icc σ S) ∩ {q | span g a b q.1 (max q.2 σ) = p} with hK
  have hKc : IsCompact K := (isCompact_Icc.prod isCompact_Icc).inter_right (isClosed_eq hcont continuous_const)
  have hin : ∀ m s, 0 < s → span g a b m s = p → J ≤ m + Real.log s → (m, s) ∈ K := by
    intro m s hs he hj
    have h1 := hup m s hs he
    have h2 := span_scale hg hab hk ek hs he
    have h3 := Real.log_le_log hs h2
    have h4 : σ ≤ s := by rw [hσ, ← Real.le_log_iff_exp_le hs]; linarith
    refine ⟨⟨⟨by linarith, h1⟩, h4, h2⟩, ?_⟩
    change span g a b m (max s σ) = p
    rw [max_eq_left h4, he]
  have hne : K.Nonempty := ⟨_, hin m₀ S S0 hcen le_rfl⟩
  obtain ⟨⟨m, s⟩, hms, hmax⟩ := hKc.exists_isMaxOn hne (f := fun q : ℝ × ℝ => q.1 + Real.log q.2)
    (continuous_fst.continuousOn.add (continuous_snd.continuousOn.log fun q hq => (σ0.trans_le hq.1.2.1).ne'))
  have s0 : 0 < s := σ0.trans_le hms.1.2.1
  have he : span g a b m s = p := by
    have := hms.2
    change span g a b m (max s σ) = p at this
    rwa [max_eq_left hms.1.2.1] at this
  refine ⟨m, s, s0, he, fun m' s' hs' he' => ?_⟩
  have hJm : J ≤ m + Real.log s := hmax (hin m₀ S S0 hcen le_rfl)
  rcases le_total J (m' + Real.log s') with h | h
  · exact hmax (hin m' s' hs' he' h)
  · linarith

/-- and it is reached once only -/
theorem span_unique (hg : Peak g) (hc : MidConvex fun x => (g x)⁻¹) {a b p m s m' s' : ℝ} (hab : a < b) (h0 : 0 < p)
    (hp : p < 1) (hs : 0 < s) (hs' : 0 < s') (e : span g a b m s = p) (e' : span g a b m' s' = p)
    (hmax : ∀ n r, 0 < r → span g a b n r = p → n + Real.log r ≤ m + Real.log s)
    (hj : m' + Real.log s' = m + Real.log s) : m' = m ∧ s' = s := by
  suffices s' = s by
    refine ⟨?_, this⟩
    rw [this] at hj
    linarith
  by_contra hne
  set t := 1 / s with ht
  set t' := 1 / s' with ht'
  have t0 : 0 < t := by positivity
  have t0' : 0 < t' := by positivity
  have tne : t ≠ t' := fun h => hne (by rw [ht, ht', one_div, one_div, inv_inj] at h; exact h.symm)
  set T := (t + t') / 2 with hT
  have T0 : 0 < T := by positivity
  set C := (m * t + m' * t') / 2 with hC
  have q : p ≤ span g a b (C / T) (1 / T) := by
    have h1 := span_quasi hg hc (a := (a - m) / s) (b := (b - m) / s) (a' := (a - m') / s') (b' := (b - m') / s') (by gcongr)
      e e'
    unfold span
    convert h1 using 3
    · rw [show (b - C / T) / (1 / T) = b * T - C by field_simp, hT, hC, ht, ht']; ring
    · rw [show (a - C / T) / (1 / T) = a * T - C by field_simp, hT, hC, ht, ht']; ring
  obtain ⟨n, hn, en⟩ := span_raise hg (by positivity) h0 hp q
  have h1 := hmax n (1 / T) (by positivity) en
  have strict := Real.strictConvexOn_mul_log.2 (mem_Ici.2 t0.le) (mem_Ici.2 t0'.le) tne (show (0 : ℝ) < 1 / 2 by norm_num)
    (show (0 : ℝ) < 1 / 2 by norm_num) (by norm_num)
  simp only [smul_eq_mul] at strict
  rw [show 1 / 2 * t + 1 / 2 * t' = T by rw [hT]; ring] at strict
  have l1 : Real.log t = -Real.log s := by rw [ht, one_div, Real.log_inv]
  have l2 : Real.log t' = -Real.log s' := by rw [ht', one_div, Real.log_inv]
  have l3 : Real.log (1 / T) = -Real.log T := by rw [one_div, Real.log_inv]
  rw [l3] at h1
  have h2 : C / T ≤ m + Real.log s + Real.log T := by linarith
  rw [div_le_iff₀ T0] at h2
  rw [l1, l2] at strict
  have h3 : m' = m + Real.log s - Real.log s' := by linarith
  rw [hC, h3] at h2
  have h4 : (m + Real.log s) * T = (m + Real.log s) * t / 2 + (m + Real.log s) * t' / 2 := by rw [hT]; ring
  nlinarith

/-- the location is above the centre -/
theorem span_above (hg : Peak g) {a b p m s : ℝ} (hab : a < b) (h0 : 0 < p) (hp : p < 1) (hs : 0 < s)
    (e : span g a b m s = p) (hmax : ∀ n r, 0 < r → span g a b n r = p → n + Real.log r ≤ m + Real.log s) :
    (a + b) / 2 < m := by
  rcases lt_trichotomy m ((a + b) / 2) with h | h | h
  · have := hmax (a + b - m) s hs (by rw [span_mirror hg, e])
    linarith
  · exfalso
    have hul := sub_pos.2 hab
    set w := (b - a) / 2 with hw
    have w0 : 0 < w := by positivity
    have bm : b - m = w := by rw [h, hw]; ring
    have am : a - m = -w := by rw [h, hw]; ring
    have d1 : ∀ c : ℝ, HasDerivAt (fun ε : ℝ => (c - ε) / (s * (1 - ε / 2))) ((-1 + c / 2) / s) 0 := by
      intro c
      have n := (hasDerivAt_id (0 : ℝ)).const_sub c
      have d := (((hasDerivAt_id (0 : ℝ)).div_const 2).const_sub 1).const_mul s
      have := n.div d (by simp [hs.ne'])
      refine this.congr_deriv ?_
      simp only [id, sub_zero, zero_div, mul_one]
      field_simp
      ring
    have D : HasDerivAt (fun ε : ℝ => span g a b (m + ε) (s * (1 - ε / 2))) (g (w / s) * w / s) 0 := by
      have h1 := (upTo_deriv hg ((w - 0) / (s * (1 - 0 / 2)))).comp (0 : ℝ) (d1 w)
      have h2 := (upTo_deriv hg ((-w - 0) / (s * (1 - 0 / 2)))).comp (0 : ℝ) (d1 (-w))
      refine ((h1.sub h2).congr_deriv ?_).congr_of_eventuallyEq (Eventually.of_forall fun ε => ?_)
      · simp only [sub_zero, zero_div, mul_one]
        rw [neg_div, hg.even]
        ring
      · simp only [span, Function.comp_apply, Pi.sub_apply]
        rw [show b - (m + ε) = w - ε by linarith, show a - (m + ε) = -w - ε by linarith]
    have Dpos : 0 < g (w / s) * w / s := by have := peak_pos hg (w / s); positivity
    have ev := (hasDerivAt_iff_tendsto_slope.1 D).eventually (lt_mem_nhds Dpos)
    have ev' : ∀ᶠ ε in 𝓝[>] (0 : ℝ), 0 < slope (fun ε : ℝ => span g a b (m + ε) (s * (1 - ε / 2))) 0 ε :=
      ev.filter_mono (nhdsWithin_mono 0 fun x hx => ne_of_gt hx)
    have ev1 : ∀ᶠ ε in 𝓝[>] (0 : ℝ), ε < 1 := mem_nhdsWithin_of_mem_nhds (Iio_mem_nhds one_pos)
    obtain ⟨ε, ⟨h1, h2⟩, h3⟩ := ((ev'.and ev1).and self_mem_nhdsWithin).exists
    have ε0 : 0 < ε := h3
    rw [slope_def_field, sub_zero] at h1
    have h4 := (div_pos_iff_of_pos_right ε0).1 h1
    simp only [add_zero, zero_div, sub_zero, mul_one] at h4
    rw [e] at h4
    have pos : 0 < 1 - ε / 2 := by linarith
    obtain ⟨n, hn, en⟩ := span_raise hg (mul_pos hs pos) h0 hp (by linarith : p ≤ span g a b (m + ε) (s * (1 - ε / 2)))
    have h5 := hmax n _ (mul_pos hs pos) en
    rw [Real.log_mul hs.ne' pos.ne'] at h5
    have h6 := Real.one_sub_inv_le_log_of_pos pos
    have h7 : -ε < 1 - (1 - ε / 2)⁻¹ := by
      have : (1 - ε / 2)⁻¹ < 1 + ε := by
        rw [inv_lt_iff_one_lt_mul₀ pos]
        nlinarith
      linarith
    linarith
  · exact h

/-! ### The exponential of such a variable -/

/-- the density of the exponential -/
noncomputable def expOf (f : ℝ → ℝ) (x : ℝ) : ℝ := if 0 < x then f (Real.log x) / x else 0

theorem expOf_nonneg {f : ℝ → ℝ} (h : ∀ x, 0 ≤ f x) (x : ℝ) : 0 ≤ expOf f x := by
  unfold expOf
  split_ifs with hx
  · exact div_nonneg (h _) hx.le
  · exact le_rfl

theorem expOf_real {f : ℝ → ℝ} (hm : Measurable f) (h0 : ∀ x, 0 ≤ f x) (hi : Integrable f) {A : Set ℝ} (hA : MeasurableSet A) :
    (ofPdf (expOf f)).real A = ∫ z in Real.exp ⁻¹' A, f z := by
  have hB : MeasurableSet (Real.exp ⁻¹' A) := Real.measurable_exp hA
  have H : HI ((Real.exp ⁻¹' A).indicator f) (∫ z in Real.exp ⁻¹' A, f z) := ⟨hi.indicator hB, integral_indicator hB⟩
  have K : HIs (Ioi 0) (A.indicator (expOf f)) (∫ z in Real.exp ⁻¹' A, f z) := by
    rw [HIs.exp]
    refine H.congr fun z => ?_
    have := (Real.exp_pos z).ne'
    by_cases hz : Real.exp z ∈ A
    · rw [indicator_of_mem hz, indicator_of_mem (show z ∈ Real.exp ⁻¹' A from hz)]
      simp only [expOf, Real.exp_pos, if_true, Real.log_exp]
      field_simp
    · rw [indicator_of_notMem hz, indicator_of_notMem (show z ∉ Real.exp ⁻¹' A from hz), mul_zero]
  have e : ∀ y, (Ioi 0).indicator (A.indicator (expOf f)) y = A.indicator (expOf f) y := by
    intro y
    by_cases hy : 0 < y
    · rw [indicator_of_mem (show y ∈ Ioi (0 : ℝ) from hy)]
    · rw [indicator_of_notMem (show y ∉ Ioi (0 : ℝ) from hy)]
      simp [indicator, expOf, hy]
  obtain ⟨k1, k2⟩ := (K.all measurableSet_Ioi).congr e
  rw [integrable_indicator_iff hA] at k1
  rw [integral_indicator hA] at k2
  rw [Lemmas.QuartileShape.real_pdf hA (expOf_nonneg h0) k1, k2]

theorem expOf_mass {f : ℝ → ℝ} (hm : Measurable f) (h0 : ∀ x, 0 ≤ f x) (hi : Integrable f) {l u : ℝ} (hl : 0 < l) (h : l ≤ u) :
    massOf (expOf f) l u = massOf f (Real.log l) (Real.log u) := by
  have hu := hl.trans_le h
  unfold massOf
  rw [expOf_real hm h0 hi measurableSet_Icc, Lemmas.QuartileShape.real_pdf measurableSet_Icc h0 hi.integrableOn]
  congr 2
  ext z
  simp only [mem_preimage, mem_Icc]
  rw [Real.log_le_iff_le_exp hl, Real.le_log_iff_exp_le hu]

theorem expOf_mass_zero {f : ℝ → ℝ} (hm : Measurable f) (h0 : ∀ x, 0 ≤ f x) (hi : Integrable f) {u : ℝ} (hu : 0 < u) :
    massOf (expOf f) 0 u = (ofPdf f).real (Iic (Real.log u)) := by
  unfold massOf
  rw [expOf_real hm h0 hi measurableSet_Icc, Lemmas.QuartileShape.real_pdf measurableSet_Iic h0 hi.integrableOn]
  congr 2
  ext z
  simp only [mem_preimage, mem_Icc, mem_Iic]
  rw [Real.le_log_iff_exp_le hu]
  exact ⟨fun h => h.2, fun h => ⟨(Real.exp_pos z).le, h⟩⟩

/-- the entropy of the exponential is the mean more -/
theorem expOf_entropy {f : ℝ → ℝ} {m : ℝ} (h0 : ∀ x, 0 < f x) (hent : Integrable fun x => f x * Real.log (f x))
    (hmean : HI (fun x => x * f x) m) : entropyOf (expOf f) = m + entropyOf f := by
  unfold entropyOf
  have H : HI (fun z => f z * Real.log (f z) + -1 * (z * f z)) ((∫ z, f z * Real.log (f z)) + -1 * m) :=
    HI.add ⟨hent, rfl⟩ (hmean.cmul (-1))
  have K : HIs (Ioi 0) (fun x => expOf f x * Real.log (expOf f x)) ((∫ z, f z * Real.log (f z)) + -1 * m) := by
    rw [HIs.exp]
    refine H.congr fun z => ?_
    simp only [expOf, Real.exp_pos, if_true, Real.log_exp]
    have := (Real.exp_pos z).ne'
    rw [Real.log_div (h0 z).ne' this, Real.log_exp]
    field_simp
    ring
  have e : ∀ y, (Ioi 0).indicator (fun x => expOf f x * Real.log (expOf f x)) y = expOf f y * Real.log (expOf f y) := by
    intro y
    by_cases hy : 0 < y
    · rw [indicator_of_mem (show y ∈ Ioi (0 : ℝ) from hy)]
    · rw [indicator_of_notMem (show y ∉ Ioi (0 : ℝ) from hy)]
      simp [expOf, hy]
  rw [((K.all measurableSet_Ioi).congr e).2]
  ring

/-- location and scale -/
theorem moved_entropy_int (hg : Peak g) (m : ℝ) {s : ℝ} (hs : 0 < s) :
    Integrable fun x => moved g m s x * Real.log (moved g m s x) := by
  have e : ∀ x, moved g m s x * Real.log (moved g m s x) =
      (g ((x - m) / s) * Real.log (g ((x - m) / s)) - Real.log s * g ((x - m) / s)) / s := by
    intro x
    unfold moved
    rw [Real.log_div (peak_pos hg _).ne' hs.ne']; ring
  simp only [e]
  have i1 := (show HI (fun x => g x * Real.log (g x)) _ from ⟨hg.ent, rfl⟩).affine m hs
  have i2 := (show HI g 1 from ⟨hg.int, hg.one⟩).affine m hs
  exact (i1.1.sub (i2.1.const_mul _)).div_const s

/-! ### The families -/

/-- the symmetric family of the logarithm -/
def logOf : LogFam → PeakFam
  | .logNormal => .normal
  | .logLogistic => .logistic

theorem logOf_ok (F : LogFam) : (logOf F).Ok := by cases F <;> exact trivial

theorem pdf_expOf (F : LogFam) (m : ℝ) {s : ℝ} (hs : 0 < s) : F.pdf m s = expOf ((logOf F).pdf m s) := by
  funext x
  cases F with
  | logNormal =>
    simp only [LogFam.pdf, logOf, PeakFam.pdf, expOf]
    split_ifs with hx
    · unfold logNormalPdf normalPdf
      field_simp
    · rfl
  | logLogistic =>
    simp only [LogFam.pdf, logOf, PeakFam.pdf, expOf, logLogisticPdf]
    split_ifs with hx
    · have ha := Real.exp_pos m
      have hxa : 0 < x / Real.exp m := by positivity
      have e : (x / Real.exp m) ^ (1 / s) = Real.exp ((Real.log x - m) / s) := by
        rw [Real.rpow_def_of_pos hxa, Real.log_div hx.ne' ha.ne', Real.log_exp]
        congr 1; ring
      rw [Real.rpow_sub_one hxa.ne', e]
      unfold logisticPdf
      rw [Real.exp_neg]
      have := Real.exp_pos ((Real.log x - m) / s)
      field_simp
      ring
    · rfl

theorem mid_convex (F : LogFam) : MidConvex fun x => ((logOf F).pdf 0 1 x)⁻¹ := by
  intro x y
  cases F with
  | logNormal =>
    have e : ∀ x, (normalPdf 0 1 x)⁻¹ = √(2 * Real.pi) * Real.exp (x ^ 2 / 2) := by
      intro x
      simp only [normalPdf, sub_zero, one_mul, one_pow, mul_one]
      rw [mul_inv, one_div, inv_inv, neg_div, Real.exp_neg, inv_inv]
    simp only [logOf, PeakFam.pdf]
    rw [e, e, e]
    have k : Real.exp (((x + y) / 2) ^ 2 / 2) ≤ (Real.exp (x ^ 2 / 2) + Real.exp (y ^ 2 / 2)) / 2 := by
      have h1 : Real.exp (((x + y) / 2) ^ 2 / 2) ≤ Real.exp (x ^ 2 / 4) * Real.exp (y ^ 2 / 4) := by
        rw [← Real.exp_add]
        exact Real.exp_le_exp.2 (by nlinarith [sq_nonneg (x - y)])
      have h2 : Real.exp (x ^ 2 / 2) = Real.exp (x ^ 2 / 4) ^ 2 := by
        rw [sq (Real.exp _), ← Real.exp_add]; congr 1; ring
      have h3 : Real.exp (y ^ 2 / 2) = Real.exp (y ^ 2 / 4) ^ 2 := by
        rw [sq (Real.exp _), ← Real.exp_add]; congr 1; ring
      rw [h2, h3]
      nlinarith [sq_nonneg (Real.exp (x ^ 2 / 4) - Real.exp (y ^ 2 / 4))]
    have := mul_le_mul_of_nonneg_left k (Real.sqrt_nonneg (2 * Real.pi))
    linarith
  | logLogistic =>
    have e : ∀ x, (logisticPdf 0 1 x)⁻¹ = 2 + 2 * Real.cosh x := by
      intro x
      simp only [logisticPdf, sub_zero, div_one, one_mul]
      rw [Real.cosh_eq, inv_div, Real.exp_neg]
      have := Real.exp_pos x
      field_simp
      ring
    simp only [logOf, PeakFam.pdf]
    rw [e, e, e]
    have h1 : Real.cosh x + Real.cosh y = 2 * (Real.cosh ((x + y) / 2) * Real.cosh ((x - y) / 2)) := by
      have a := Real.cosh_add ((x + y) / 2) ((x - y) / 2)
      have b := Real.cosh_sub ((x + y) / 2) ((x - y) / 2)
      rw [show (x + y) / 2 + (x - y) / 2 = x by ring] at a
      rw [show (x + y) / 2 - (x - y) / 2 = y by ring] at b
      rw [a, b]; ring
    have h2 := Real.one_le_cosh ((x - y) / 2)
    have h3 := Real.cosh_pos ((x + y) / 2)
    nlinarith

theorem log_mean (F : LogFam) (m : ℝ) {s : ℝ} (hs : 0 < s) : HI (fun x => x * (logOf F).pdf m s x) m := by
  cases F with
  | logNormal => exact (normalRaw hs m).first
  | logLogistic =>
    have h := logistic hs m
    have hm : Measurable (logisticPdf m s) := by unfold logisticPdf; fun_prop
    have h0 : ∀ x, 0 ≤ logisticPdf m s x := fun x => by unfold logisticPdf; positivity
    exact ⟨(ofPdf_integrable hm h0 _).1 h.int1, (ofPdf_integral hm h0 fun x => x).symm.trans h.mean⟩

theorem log_mass (F : LogFam) (m : ℝ) {s : ℝ} (hs : 0 < s) {l u : ℝ} (hl : 0 < l) (h : l ≤ u) :
    massOf (F.pdf m s) l u = span ((logOf F).pdf 0 1) (Real.log l) (Real.log u) m s := by
  have hg := peak_fam _ (logOf_ok F)
  rw [pdf_expOf F m hs, fam_moved _ m hs, expOf_mass (moved_meas hg m s) (fun x => div_nonneg (hg.nonneg _) hs.le)
    (moved_int hg m hs) hl h, mass_upTo hg m hs (Real.log_le_log hl h)]
  rfl

theorem log_mass_zero (F : LogFam) (m : ℝ) {s : ℝ} (hs : 0 < s) {u : ℝ} (hu : 0 < u) :
    massOf (F.pdf m s) 0 u = upTo ((logOf F).pdf 0 1) ((Real.log u - m) / s) := by
  have hg := peak_fam _ (logOf_ok F)
  rw [pdf_expOf F m hs, fam_moved _ m hs, expOf_mass_zero (moved_meas hg m s) (fun x => div_nonneg (hg.nonneg _) hs.le)
    (moved_int hg m hs) hu, cdf_moved hg m hs]

theorem log_entropy (F : LogFam) (m : ℝ) {s : ℝ} (hs : 0 < s) :
    entropyOf (F.pdf m s) = m + Real.log s + entropyOf ((logOf F).pdf 0 1) := by
  have hg := peak_fam _ (logOf_ok F)
  have hmean := log_mean F m hs
  rw [pdf_expOf F m hs]
  rw [fam_moved _ m hs] at hmean ⊢
  rw [expOf_entropy (f := moved _ m s) (fun x => div_pos (peak_pos hg _) hs) (moved_entropy_int hg m hs) hmean, entropy_moved hg m hs]
  ring

end Verif.LogScale
