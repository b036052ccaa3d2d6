import Verif.Lemmas.HalfScale
import Verif.Props.Select
import Verif.Props.NumFit

/-!
# C117: the answers for families on the half line with a scale

Exponential, HalfNormal, HalfCauchy and HalfStudentT (with given degrees of freedom), by their documented densities.
-/

namespace Verif.Props
open MeasureTheory Verif Verif.Spec Verif.Param Verif.Optim Verif.NumFit Verif.Modifier Verif.LocScale Verif.HalfScale Set

/-! ### Which scales give an interval a mass -/

private theorem hmass {F : HalfFam} (hF : F.Ok) {s : ℝ} (hs : 0 < s) {l u : ℝ} (hl : 0 ≤ l) (h : l ≤ u) :
    massOf (F.pdf s) l u = around (unfolded F) 0 (u / s) - around (unfolded F) 0 (l / s) := by
  rw [half_folded F hF hs, mass_folded (unfolded_peak F hF) hs hl h]

private theorem hgap {F : HalfFam} (hF : F.Ok) {s : ℝ} (hs : 0 < s) {l u : ℝ} (hl : 0 < l) (h : l ≤ u) :
    massOf (F.pdf s) l u = gap (unfolded F) (u / l) (l / s) := by
  rw [hmass hF hs hl.le h, gap, div_mul_div_cancel₀ hl.ne']

private theorem hentropy {F : HalfFam} (hF : F.Ok) {s s' : ℝ} (hs : 0 < s) (hs' : 0 < s') :
    entropyOf (F.pdf s) ≤ entropyOf (F.pdf s') ↔ s ≤ s' := by
  rw [half_folded F hF hs, half_folded F hF hs', entropy_folded (unfolded_peak F hF) hs,
    entropy_folded (unfolded_peak F hF) hs', add_le_add_iff_right, Real.log_le_log_iff hs hs']

/-- **C117**: the larger the scale, the larger the entropy. -/
theorem half_entropy (F : HalfFam) (hF : F.Ok) (s s' : ℝ) (hs : 0 < s) (h : s < s') :
    entropyOf (F.pdf s) < entropyOf (F.pdf s') := by
  rw [← not_le, hentropy hF (hs.trans h) hs]
  exact not_le.2 h

/-- **C117**: the mass depends on the interval only in units of the scale. -/
theorem half_units (F : HalfFam) (hF : F.Ok) (k s l u : ℝ) (hk : 0 < k) (hs : 0 < s) (hl : 0 ≤ l) (h : l ≤ u) :
    massOf (F.pdf (k * s)) (k * l) (k * u) = massOf (F.pdf s) l u := by
  rw [hmass hF (by positivity) (by positivity) (by gcongr), hmass hF hs hl h, mul_div_mul_left _ _ hk.ne',
    mul_div_mul_left _ _ hk.ne']

/-- **C117**: an interval that starts at zero: every mass below one is that of exactly one distribution of the family. -/
theorem half_from_zero (F : HalfFam) (hF : F.Ok) (u p : ℝ) (hu : 0 < u) (h0 : 0 < p) (h1 : p < 1) :
    ∃ s, 0 < s ∧ ∀ s', 0 < s' → (massOf (F.pdf s') 0 u = p ↔ s' = s) := by
  have hg := unfolded_peak F hF
  obtain ⟨k, hk, e⟩ := around_exists hg h0 h1
  have z : around (unfolded F) 0 0 = 0 := by simp [around]
  refine ⟨u / k, by positivity, fun s' hs' => ?_⟩
  rw [hmass hF hs' le_rfl hu.le, zero_div, z, sub_zero, ← e, (around_mono hg 0).injective.eq_iff]
  constructor
  · rintro rfl; field_simp
  · rintro rfl; field_simp

private theorem hump {F : HalfFam} (hF : F.Ok) {l u s₀ : ℝ} (hl : 0 < l) (h : l < u) (h0 : 0 < s₀)
    (he : u / l * unfolded F (u / l * (l / s₀)) = unfolded F (l / s₀)) :
    (∀ s s', 0 < s → s < s' → s' ≤ s₀ → massOf (F.pdf s) l u < massOf (F.pdf s') l u) ∧
    (∀ s s', s₀ ≤ s → s < s' → massOf (F.pdf s') l u < massOf (F.pdf s) l u) := by
  have hc : 1 < u / l := by rw [lt_div_iff₀ hl]; linarith
  obtain ⟨m, a⟩ := gap_at (unfolded_peak F hF) (unfolded_thin F hF) hc (by positivity) he
  constructor
  · intro s s' hs hss h'
    have hs' := hs.trans hss
    rw [hgap hF hs hl h.le, hgap hF hs' hl h.le]
    refine a ?_ ?_ ?_
    · simp only [mem_Ici]; gcongr
    · simp only [mem_Ici]; have := hss.le.trans h'; gcongr
    · gcongr
  · intro s s' hs hss
    have h1 := h0.trans_le hs
    have h2 := h1.trans hss
    rw [hgap hF h1 hl h.le, hgap hF (h1.trans hss) hl h.le]
    refine m ⟨by positivity, ?_⟩ ⟨by positivity, ?_⟩ ?_
    · have := hs.trans hss.le; gcongr
    · gcongr
    · gcongr

private theorem hump_max {F : HalfFam} (hF : F.Ok) {l u s₀ : ℝ} (hl : 0 < l) (h : l < u) (h0 : 0 < s₀)
    (he : u / l * unfolded F (u / l * (l / s₀)) = unfolded F (l / s₀)) (s : ℝ) (hs : 0 < s) (hne : s ≠ s₀) :
    massOf (F.pdf s) l u < massOf (F.pdf s₀) l u := by
  obtain ⟨m, a⟩ := hump hF hl h h0 he
  rcases lt_or_gt_of_ne hne with h' | h'
  · exact m s s₀ hs h' le_rfl
  · exact a s₀ s le_rfl h'

private theorem hump_two {F : HalfFam} (hF : F.Ok) {l u s₀ : ℝ} (hl : 0 < l) (h : l < u) (h0 : 0 < s₀)
    (he : u / l * unfolded F (u / l * (l / s₀)) = unfolded F (l / s₀)) (p : ℝ) (hp : 0 < p)
    (ht : p < massOf (F.pdf s₀) l u) :
    ∃ s₁ s₂, 0 < s₁ ∧ s₁ < s₀ ∧ s₀ < s₂ ∧ ∀ s, 0 < s → (massOf (F.pdf s) l u = p ↔ s = s₁ ∨ s = s₂) := by
  have hg := unfolded_peak F hF
  have hc : 1 < u / l := by rw [lt_div_iff₀ hl]; linarith
  obtain ⟨m, a⟩ := hump hF hl h h0 he
  rw [hgap hF h0 hl h.le] at ht
  set x₀ := l / s₀ with hx₀
  have x0 : 0 < x₀ := by positivity
  -- below the peak
  obtain ⟨x, hx, ex⟩ := intermediate_value_Icc x0.le (gap_cont hg (u / l)).continuousOn (show p ∈ _ from
    ⟨by rw [gap_zero]; exact hp.le, ht.le⟩)
  have hx1 : 0 < x := by
    rcases hx.1.lt_or_eq with h' | h'
    · exact h'
    · subst h'; rw [gap_zero] at ex; linarith
  have hx2 : x < x₀ := by
    rcases hx.2.lt_or_eq with h' | h'
    · exact h'
    · subst h'; linarith
  -- above the peak
  obtain ⟨z, hz⟩ := (((gap_lim hg hc).eventually (gt_mem_nhds hp)).and (Filter.eventually_gt_atTop x₀)).exists
  obtain ⟨y, hy, ey⟩ := intermediate_value_Icc' hz.2.le (gap_cont hg (u / l)).continuousOn (show p ∈ _ from
    ⟨hz.1.le, ht.le⟩)
  have hy1 : x₀ < y := by
    rcases hy.1.lt_or_eq with h' | h'
    · exact h'
    · rw [← h'] at ey; linarith
  have hy0 := x0.trans hy1
  have hs1 : l / y < s₀ := by rw [div_lt_iff₀ hy0]; rw [hx₀, div_lt_iff₀ h0] at hy1; linarith
  have hs2 : s₀ < l / x := by rw [lt_div_iff₀ hx1]; rw [hx₀, lt_div_iff₀ h0] at hx2; linarith
  have m1 : massOf (F.pdf (l / y)) l u = p := by
    rw [hgap hF (by positivity) hl h.le, div_div_cancel₀ hl.ne', ey]
  have m2 : massOf (F.pdf (l / x)) l u = p := by
    rw [hgap hF (by positivity) hl h.le, div_div_cancel₀ hl.ne', ex]
  refine ⟨l / y, l / x, by positivity, hs1, hs2, fun s hs => ⟨fun e => ?_, ?_⟩⟩
  · rcases le_total s s₀ with h' | h'
    · left
      rcases lt_trichotomy s (l / y) with h'' | h'' | h''
      · have := m s (l / y) hs h'' hs1.le; linarith
      · exact h''
      · have := m (l / y) s (by positivity) h'' h'; linarith
    · right
      rcases lt_trichotomy s (l / x) with h'' | h'' | h''
      · have := a s (l / x) h' h''; linarith
      · exact h''
      · have := a (l / x) s hs2.le h''; linarith
  · rintro (rfl | rfl)
    · exact m1
    · exact m2

private theorem hump_exists {F : HalfFam} (hF : F.Ok) {l u : ℝ} (hl : 0 < l) (h : l < u) :
    ∃ s₀, 0 < s₀ ∧ u / l * unfolded F (u / l * (l / s₀)) = unfolded F (l / s₀) := by
  have hc : 1 < u / l := by rw [lt_div_iff₀ hl]; linarith
  obtain ⟨x, hx, e⟩ := gap_peak (unfolded_peak F hF) hc
  exact ⟨l / x, by positivity, by rwa [div_div_cancel₀ hl.ne']⟩

/-- **C117**: an interval that starts above zero: there is a largest mass the family can give it, smaller than one and reached
by one distribution only; every smaller mass is that of exactly two distributions, and the wider one has the larger entropy. -/
theorem half_two (F : HalfFam) (hF : F.Ok) (l u : ℝ) (hl : 0 < l) (h : l < u) :
    ∃ s₀ top, 0 < s₀ ∧ 0 < top ∧ top < 1 ∧ massOf (F.pdf s₀) l u = top ∧
      (∀ s, 0 < s → s ≠ s₀ → massOf (F.pdf s) l u < top) ∧
      ∀ p, 0 < p → p < top → ∃ s₁ s₂, 0 < s₁ ∧ s₁ < s₀ ∧ s₀ < s₂ ∧
        (∀ s, 0 < s → (massOf (F.pdf s) l u = p ↔ s = s₁ ∨ s = s₂)) ∧
        entropyOf (F.pdf s₁) < entropyOf (F.pdf s₂) := by
  have hg := unfolded_peak F hF
  obtain ⟨s₀, h0, he⟩ := hump_exists hF hl h
  refine ⟨s₀, massOf (F.pdf s₀) l u, h0, ?_, ?_, rfl, hump_max hF hl h h0 he, fun p hp ht => ?_⟩
  · rw [hmass hF h0 hl.le h.le]
    exact sub_pos.2 (around_mono hg 0 (by gcongr))
  · rw [hmass hF h0 hl.le h.le]
    have h1 := around_lt_one hg (u / s₀)
    have h2 := around_mono hg 0 (show 0 < l / s₀ by positivity)
    simp only [around, sub_zero, add_zero, intervalIntegral.integral_same] at h2
    simp only [around] at h1 ⊢
    linarith
  · obtain ⟨s₁, s₂, a, b, c, d⟩ := hump_two hF hl h h0 he p hp ht
    exact ⟨s₁, s₂, a, b, c, d, half_entropy F hF s₁ s₂ a (b.trans c)⟩

/-- **C117**: where the largest mass is reached. -/
theorem half_peak_scale (l u : ℝ) (hl : 0 < l) (h : l < u) :
    (∀ s, 0 < s → s ≠ (u - l) / Real.log (u / l) →
      massOf (exponentialPdf (1 / s)) l u < massOf (exponentialPdf (1 / ((u - l) / Real.log (u / l)))) l u) ∧
    (∀ s, 0 < s → s ≠ √((u ^ 2 - l ^ 2) / (2 * Real.log (u / l))) →
      massOf (halfNormalPdf s) l u < massOf (halfNormalPdf √((u ^ 2 - l ^ 2) / (2 * Real.log (u / l)))) l u) ∧
    (∀ s, 0 < s → s ≠ √(l * u) → massOf (halfCauchyPdf s) l u < massOf (halfCauchyPdf √(l * u)) l u) := by
  have hu := hl.trans h
  have hc : 1 < u / l := by rw [lt_div_iff₀ hl]; linarith
  have hlog : 0 < Real.log (u / l) := Real.log_pos hc
  have hul : 0 < u - l := sub_pos.2 h
  refine ⟨?_, ?_, ?_⟩
  · refine hump_max (F := .exponential) trivial hl h (by positivity) ?_
    simp only [unfolded, laplacePdf, sub_zero, mul_one, div_one]
    rw [abs_of_pos (by positivity), abs_of_pos (by positivity)]
    have e : u / l = Real.exp (Real.log (u / l)) := (Real.exp_log (by positivity)).symm
    have : Real.exp (Real.log (u / l)) * Real.exp (-(u / l * (l / ((u - l) / Real.log (u / l))))) =
        Real.exp (-(l / ((u - l) / Real.log (u / l)))) := by
      rw [← Real.exp_add]
      congr 1
      field_simp
      ring
    rw [← this, ← e]
    ring
  · have hq : 0 < (u ^ 2 - l ^ 2) / (2 * Real.log (u / l)) := div_pos (by nlinarith) (by positivity)
    refine hump_max (F := .halfNormal) trivial hl h (Real.sqrt_pos.2 hq) ?_
    simp only [unfolded, normalPdf, sub_zero, mul_one, one_mul, one_pow]
    rw [div_mul_div_cancel₀ hl.ne', div_pow, div_pow, Real.sq_sqrt hq.le]
    have e : u / l = Real.exp (Real.log (u / l)) := (Real.exp_log (by positivity)).symm
    have hd : u ^ 2 - l ^ 2 ≠ 0 := by nlinarith
    have : Real.exp (Real.log (u / l)) * Real.exp (-(u ^ 2 / ((u ^ 2 - l ^ 2) / (2 * Real.log (u / l)))) / 2) =
        Real.exp (-(l ^ 2 / ((u ^ 2 - l ^ 2) / (2 * Real.log (u / l)))) / 2) := by
      rw [← Real.exp_add]
      congr 1
      field_simp
      ring
    rw [← this, ← e]
    ring
  · have hq : 0 < l * u := by positivity
    refine hump_max (F := .halfCauchy) trivial hl h (Real.sqrt_pos.2 hq) ?_
    simp only [unfolded]
    rw [← cauchy_student, ← cauchy_student]
    simp only [cauchyPdf, sub_zero, div_one, mul_one]
    rw [div_mul_div_cancel₀ hl.ne', div_pow, div_pow, Real.sq_sqrt hq.le]
    have := Real.pi_pos
    field_simp
    ring

private theorem reach {F : HalfFam} (hF : F.Ok) {l u s₀ : ℝ} (hl : 0 < l) (h : l < u) (h0 : 0 < s₀)
    (hmax : ∀ s, 0 < s → s ≠ s₀ → massOf (F.pdf s) l u < massOf (F.pdf s₀) l u) (p : ℝ) (hp : 0 < p) :
    (∃ s, 0 < s ∧ massOf (F.pdf s) l u = p) ↔ p ≤ massOf (F.pdf s₀) l u := by
  constructor
  · rintro ⟨s, hs, rfl⟩
    rcases eq_or_ne s s₀ with rfl | h'
    · exact le_rfl
    · exact (hmax s hs h').le
  · intro hle
    rcases hle.lt_or_eq with h' | h'
    · obtain ⟨s₀', top, a1, -, -, a4, a5, a6⟩ := half_two F hF l u hl h
      have : s₀' = s₀ := by
        by_contra hne
        have b := hmax s₀' a1 hne
        have c := a5 s₀ h0 (Ne.symm hne)
        linarith
      subst this
      obtain ⟨s₁, s₂, b1, -, -, b4, -⟩ := a6 p hp (by rw [← a4]; exact h')
      exact ⟨s₁, b1, (b4 s₁ b1).2 (.inl rfl)⟩
    · exact ⟨s₀, h0, h'.symm⟩

/-- **C117**: the largest mass of an Exponential distribution on `[l, u]`. -/
theorem exponential_reach (l u p : ℝ) (hl : 0 < l) (h : l < u) (hp : 0 < p) :
    (∃ lam, 0 < lam ∧ massOf (exponentialPdf lam) l u = p) ↔ p ≤ (l / u) ^ (l / (u - l)) * (1 - l / u) := by
  have hu := hl.trans h
  have hul : 0 < u - l := sub_pos.2 h
  have hlog : 0 < Real.log (u / l) := Real.log_pos (by rw [lt_div_iff₀ hl]; linarith)
  have h0 : 0 < (u - l) / Real.log (u / l) := by positivity
  have key := reach (F := .exponential) trivial hl h h0 (half_peak_scale l u hl h).1 p hp
  have e : massOf (HalfFam.exponential.pdf ((u - l) / Real.log (u / l))) l u = (l / u) ^ (l / (u - l)) * (1 - l / u) := by
    rw [hmass (F := .exponential) trivial h0 hl.le h.le]
    simp only [unfolded]
    rw [around_laplace (by positivity), around_laplace (by positivity)]
    have hb : 0 < l / u := by positivity
    have e0 : Real.log (u / l) = -Real.log (l / u) := by rw [← Real.log_inv, inv_div]
    have e1 : Real.exp (-(l / ((u - l) / Real.log (u / l)))) = (l / u) ^ (l / (u - l)) := by
      rw [Real.rpow_def_of_pos hb, e0]
      congr 1
      have : Real.log (l / u) ≠ 0 := by rw [e0] at hlog; linarith
      field_simp
    have e2 : Real.exp (-(u / ((u - l) / Real.log (u / l)))) = (l / u) ^ (l / (u - l)) * (l / u) := by
      have e3 : -(u / ((u - l) / Real.log (u / l))) = -(l / ((u - l) / Real.log (u / l))) + Real.log (l / u) := by
        rw [e0]
        have : Real.log (l / u) ≠ 0 := by rw [e0] at hlog; linarith
        field_simp
        ring
      rw [e3, Real.exp_add, e1, Real.exp_log hb]
    rw [e1, e2]
    ring
  rw [← e, ← key]
  constructor
  · rintro ⟨lam, h1, h2⟩
    exact ⟨1 / lam, by positivity, by simpa [HalfFam.pdf] using h2⟩
  · rintro ⟨s, h1, h2⟩
    exact ⟨1 / s, by positivity, h2⟩

/-- **C117**: the largest mass of a HalfCauchy distribution on `[l, u]`. -/
theorem half_cauchy_reach (l u p : ℝ) (hl : 0 < l) (h : l < u) (hp : 0 < p) :
    (∃ beta, 0 < beta ∧ massOf (halfCauchyPdf beta) l u = p) ↔ p ≤ 4 / Real.pi * Real.arctan √(u / l) - 1 := by
  have hu := hl.trans h
  have h0 : 0 < √(l * u) := Real.sqrt_pos.2 (by positivity)
  have key := reach (F := .halfCauchy) trivial hl h h0 (half_peak_scale l u hl h).2.2 p hp
  have e : massOf (HalfFam.halfCauchy.pdf √(l * u)) l u = 4 / Real.pi * Real.arctan √(u / l) - 1 := by
    rw [hmass (F := .halfCauchy) trivial h0 hl.le h.le]
    simp only [unfolded]
    rw [around_cauchy, around_cauchy]
    have e1 : u / √(l * u) = √(u / l) := by
      rw [Real.sqrt_mul hl.le, Real.sqrt_div hu.le]
      have h1 := Real.sqrt_pos.2 hl
      have h2 := Real.sqrt_pos.2 hu
      have h3 := Real.mul_self_sqrt hu.le
      field_simp
      nlinarith
    have e2 : l / √(l * u) = (√(u / l))⁻¹ := by
      rw [Real.sqrt_mul hl.le, Real.sqrt_div hu.le]
      have h1 := Real.sqrt_pos.2 hl
      have h2 := Real.sqrt_pos.2 hu
      have h3 := Real.mul_self_sqrt hl.le
      field_simp
      nlinarith
    rw [e1, e2, Real.arctan_inv_of_pos (Real.sqrt_pos.2 (by positivity))]
    have := Real.pi_pos
    field_simp
    ring
  rw [← e]
  exact key

/-- between 1 and 3 no Exponential distribution has more than 38.5 % of its mass -/
example (lam : ℝ) (hlam : 0 < lam) : massOf (exponentialPdf lam) 1 3 < 385 / 1000 := by
  by_contra hc
  have h := (exponential_reach 1 3 (massOf (exponentialPdf lam) 1 3) one_pos (by norm_num)
    (by linarith [not_lt.1 hc])).1 ⟨lam, hlam, rfl⟩
  have e : ((1 : ℝ) / 3) ^ ((1 : ℝ) / (3 - 1)) = √(1 / 3) := by
    rw [Real.sqrt_eq_rpow]; norm_num
  rw [e] at h
  have hs : √((1 : ℝ) / 3) < 5774 / 10000 := by
    rw [Real.sqrt_lt' (by norm_num)]; norm_num
  linarith [not_lt.1 hc]

/-! ### maxent -/

private theorem scale_pos (F : HalfFam) {v : ℝ} (hv : 0 < v) : 0 < F.scale v := by
  cases F <;> simp only [HalfFam.scale] <;> positivity

private theorem half_candidate (F : HalfFam) (o : Obj) (ho : construct F.family F.given = .ok o) (v : ℝ) (o1 o2 : Obj)
    (h : applyCandidate F.family o.names (getFixedParams o).1 (getFixedParams o).2 [v] o1 = .ok o2) :
    law F.family o2 = F.values v := by
  cases F <;>
    simp [construct, HalfFam.family, HalfFam.given, parametrize, exponentialParam, halfNormalParam, halfStudentTParam,
      simpleParam, simpleFam, allNotNone, blank, Obj.setAll, Obj.set, Except.ok_bind', Except.pure_eq] at ho <;>
    subst ho <;>
    simp [applyCandidate, getFixedParams, splitStep, getParams, getParamsFrom, Function.update, Except.map, Except.ok_bind',
      HalfFam.family, parametrize, kwCall, List.lookup, exponentialParam, halfNormalParam, halfStudentTParam, simpleParam,
      simpleFam, simpleUpdate, allNotNone, Obj.setAll, Obj.set, exponentialUpdate, halfNormalUpdate, halfStudentTUpdate,
      Except.pure_eq, List.zipIdx] at h <;>
    subst h <;>
    simp [law, lawAttrs, HalfFam.family, HalfFam.values, Obj.setAll, Obj.set, Function.update]

/-- **C117**: maxent.  Let the runs completed before the first failure end at positive values and report their entropies.
If one of them gives the interval the mass up to 1e-4, the distribution returned does so and has the largest scale of all
those; otherwise it is the one of the first run. -/
theorem maxent_half (F : HalfFam) (hF : F.Ok) (o : Obj) (ho : construct F.family F.given = .ok o)
    (b : ℝ → Base) (hb : ∀ s, 0 < s → (b s).discrete = false ∧ (b s).law = ofPdf (F.pdf s))
    (l u p : ℝ) (hlu : l < u)
    (err : List ℝ → Option ℝ) (herr : ∀ v, 0 < v → err [v] = some |probBound (b (F.scale v)) l u p none|)
    (done : List Opt) (rest : List (Except Err Opt)) (hrest : ∀ r, rest.head? = some r → ∃ e, r = .error e)
    (hdone : ∀ r ∈ done, ∃ v, 0 < v ∧ r.x = [v] ∧ r.value = some ((-entropyOf (F.pdf (F.scale v)) : ℝ) : EReal))
    (o1 o2 : Obj) (r : Opt)
    (h : optimizeMaxEnt F.family o.names (getFixedParams o).1 (getFixedParams o).2 err (done.map .ok ++ rest) o1 =
      .ok (r, o2)) :
    ∃ v, 0 < v ∧ r.x = [v] ∧ law F.family o2 = F.values v ∧ r ∈ done ∧
      ((∃ r' ∈ done, ∃ v', r'.x = [v'] ∧ |massOf (F.pdf (F.scale v')) l u - p| < 1 / 10000) →
        |massOf (F.pdf (F.scale v)) l u - p| < 1 / 10000 ∧
        ∀ r' ∈ done, ∀ v', r'.x = [v'] → |massOf (F.pdf (F.scale v')) l u - p| < 1 / 10000 → F.scale v' ≤ F.scale v) ∧
      ((∀ r' ∈ done, ∀ v', r'.x = [v'] → 1 / 10000 ≤ |massOf (F.pdf (F.scale v')) l u - p|) → done.head? = some r) := by
  have herr' : ∀ v, 0 < v → err [v] = some |massOf (F.pdf (F.scale v)) l u - p| := by
    intro v hv
    obtain ⟨h1, h2⟩ := hb _ (scale_pos F hv)
    rw [herr v hv, constraint_is_mass _ _ _ _ hlu.le (by simp [h1]), h2]
    rfl
  have hfe : ∀ r' ∈ done, ∀ v', r'.x = [v'] → 0 < v' ∧
      (|massOf (F.pdf (F.scale v')) l u - p| < 1 / 10000 →
        Feasible err r' ((-entropyOf (F.pdf (F.scale v')) : ℝ) : EReal)) := by
    intro r' hr' v' hx
    obtain ⟨v, hv, hx', hval⟩ := hdone r' hr'
    rw [hx] at hx'
    simp only [List.cons.injEq, and_true] at hx'
    subst hx'
    exact ⟨hv, fun hlt => ⟨⟨_, by rw [hx]; exact herr' _ hv, hlt⟩, hval⟩⟩
  have hef : ∀ r' ∈ done, ∀ v', r'.x = [v'] → ∀ w, Feasible err r' w →
      |massOf (F.pdf (F.scale v')) l u - p| < 1 / 10000 ∧ w = ((-entropyOf (F.pdf (F.scale v')) : ℝ) : EReal) := by
    intro r' hr' v' hx w ⟨⟨e, he, hlt⟩, hval⟩
    obtain ⟨v, hv, hx', hval'⟩ := hdone r' hr'
    rw [hx] at hx'
    simp only [List.cons.injEq, and_true] at hx'
    subst hx'
    rw [hx, herr' _ hv] at he
    simp only [Option.some.injEq] at he
    subst he
    rw [hval'] at hval
    simp only [Option.some.injEq] at hval
    exact ⟨hlt, hval.symm⟩
  obtain ⟨h1, h2⟩ := maxent_leaves_selected _ _ _ _ _ _ _ _ _ h
  by_cases hp : ∃ r' ∈ done, ∃ v', r'.x = [v'] ∧ |massOf (F.pdf (F.scale v')) l u - p| < 1 / 10000
  · obtain ⟨r0, hr0, v0, hx0, hlt0⟩ := hp
    obtain ⟨i, r', w, e1, e2, e3, e4, -⟩ :=
      maxent_selects err done rest hrest r0 hr0 _ ((hfe r0 hr0 v0 hx0).2 hlt0) (EReal.coe_ne_top _)
    rw [h1] at e1
    simp only [Except.ok.injEq] at e1
    subst e1
    have hrd := List.mem_of_getElem? e2
    obtain ⟨v, hv, hx, hval⟩ := hdone r hrd
    obtain ⟨hlt, rfl⟩ := hef r hrd v hx w e3
    refine ⟨v, hv, hx, half_candidate F o ho v o1 o2 (by rw [← hx]; exact h2), hrd, fun _ => ⟨hlt, fun r' hr' v' hx' hlt' => ?_⟩,
      fun hno => absurd hlt (not_lt.2 (hno r hrd v hx))⟩
    obtain ⟨hv', hf'⟩ := hfe r' hr' v' hx'
    have := e4 r' hr' _ (hf' hlt')
    rw [EReal.coe_le_coe_iff, neg_le_neg_iff] at this
    exact (hentropy hF (scale_pos F hv') (scale_pos F hv)).1 this
  · push Not at hp
    have hf := maxent_fallback err done rest hrest (fun r' hr' w hw => by
      obtain ⟨v, hv, hx, -⟩ := hdone r' hr'
      exact absurd (hef r' hr' v hx w hw).1 (not_lt.2 (hp r' hr' v hx)))
    rw [h1] at hf
    cases done with
    | nil => simp at hf
    | cons r' done =>
      simp only [Except.ok.injEq] at hf
      subst hf
      obtain ⟨v, hv, hx, hval⟩ := hdone r (by simp)
      refine ⟨v, hv, hx, half_candidate F o ho v o1 o2 (by rw [← hx]; exact h2), by simp, ?_, fun _ => rfl⟩
      rintro ⟨r'', hr'', v'', hx'', hlt⟩
      exact absurd hlt (not_lt.2 (hp r'' hr'' v'' hx''))

/-- **C117**: maxent on an interval that starts above zero, asked for a mass the family reaches.  If the completed runs that
pass the check give the interval exactly the mass, the distribution returned is the wider or the narrower of the two there are,
and it is the wider one (the answer) if and only if some completed run ended there. -/
theorem maxent_half_answer (F : HalfFam) (hF : F.Ok) (o : Obj) (ho : construct F.family F.given = .ok o)
    (b : ℝ → Base) (hb : ∀ s, 0 < s → (b s).discrete = false ∧ (b s).law = ofPdf (F.pdf s))
    (l u p : ℝ) (hlu : l < u) (s₁ s₂ : ℝ) (hs₁ : 0 < s₁) (hs : s₁ < s₂)
    (hsol : ∀ s, 0 < s → (massOf (F.pdf s) l u = p ↔ s = s₁ ∨ s = s₂))
    (err : List ℝ → Option ℝ) (herr : ∀ v, 0 < v → err [v] = some |probBound (b (F.scale v)) l u p none|)
    (done : List Opt) (rest : List (Except Err Opt)) (hrest : ∀ r, rest.head? = some r → ∃ e, r = .error e)
    (hdone : ∀ r ∈ done, ∃ v, 0 < v ∧ r.x = [v] ∧ r.value = some ((-entropyOf (F.pdf (F.scale v)) : ℝ) : EReal))
    (hexact : ∀ r' ∈ done, ∀ v', r'.x = [v'] → |massOf (F.pdf (F.scale v')) l u - p| < 1 / 10000 →
      massOf (F.pdf (F.scale v')) l u = p)
    (hsome : ∃ r' ∈ done, ∃ v', r'.x = [v'] ∧ |massOf (F.pdf (F.scale v')) l u - p| < 1 / 10000)
    (o1 o2 : Obj) (r : Opt)
    (h : optimizeMaxEnt F.family o.names (getFixedParams o).1 (getFixedParams o).2 err (done.map .ok ++ rest) o1 =
      .ok (r, o2)) :
    ∃ v, law F.family o2 = F.values v ∧ (F.scale v = s₁ ∨ F.scale v = s₂) ∧
      (F.scale v = s₂ ↔ ∃ r' ∈ done, ∃ v', r'.x = [v'] ∧ F.scale v' = s₂) := by
  obtain ⟨v, hv, hx, hl, hrd, h1, -⟩ := maxent_half F hF o ho b hb l u p hlu err herr done rest hrest hdone o1 o2 r h
  obtain ⟨hlt, hmax⟩ := h1 hsome
  have hm := (hsol _ (scale_pos F hv)).1 (hexact r hrd v hx hlt)
  refine ⟨v, hl, hm, fun e => ⟨r, hrd, v, hx, e⟩, ?_⟩
  rintro ⟨r', hr', v', hx', e'⟩
  have hm' : massOf (F.pdf (F.scale v')) l u = p := (hsol _ (by rw [e']; exact hs₁.trans hs)).2 (.inr e')
  have := hmax r' hr' v' hx' (by rw [hm', sub_self, abs_zero]; norm_num)
  rcases hm with e | e
  · linarith
  · exact e

/-- **C117**: maxent asked for a mass that the family cannot give (by 1e-4 or more): the distribution of the first completed
run is returned, whatever its entropy; it misses the mass. -/
theorem maxent_half_unmet (F : HalfFam) (hF : F.Ok) (o : Obj) (ho : construct F.family F.given = .ok o)
    (b : ℝ → Base) (hb : ∀ s, 0 < s → (b s).discrete = false ∧ (b s).law = ofPdf (F.pdf s))
    (l u p : ℝ) (hlu : l < u) (hun : ∀ s, 0 < s → massOf (F.pdf s) l u + 1 / 10000 ≤ p)
    (err : List ℝ → Option ℝ) (herr : ∀ v, 0 < v → err [v] = some |probBound (b (F.scale v)) l u p none|)
    (done : List Opt) (rest : List (Except Err Opt)) (hrest : ∀ r, rest.head? = some r → ∃ e, r = .error e)
    (hdone : ∀ r ∈ done, ∃ v, 0 < v ∧ r.x = [v] ∧ r.value = some ((-entropyOf (F.pdf (F.scale v)) : ℝ) : EReal))
    (o1 o2 : Obj) (r : Opt)
    (h : optimizeMaxEnt F.family o.names (getFixedParams o).1 (getFixedParams o).2 err (done.map .ok ++ rest) o1 =
      .ok (r, o2)) :
    ∃ v, law F.family o2 = F.values v ∧ (done.head?.map fun r => r.x) = some [v] ∧
      massOf (F.pdf (F.scale v)) l u ≤ p - 1 / 10000 := by
  obtain ⟨v, hv, hx, hl, hrd, -, h2⟩ := maxent_half F hF o ho b hb l u p hlu err herr done rest hrest hdone o1 o2 r h
  refine ⟨v, hl, ?_, by linarith [hun _ (scale_pos F hv)]⟩
  rw [h2 fun r' hr' v' hx' => ?_]
  · simp [hx]
  · obtain ⟨w, hw, hx'', -⟩ := hdone r' hr'
    rw [hx'] at hx''
    simp only [List.cons.injEq, and_true] at hx''
    subst hx''
    have := hun _ (scale_pos F hw)
    rw [abs_of_neg (by linarith)]
    linarith

/-! ### quartile -/

private theorem hcdf_eq {F : HalfFam} (hF : F.Ok) {s : ℝ} (hs : 0 < s) {x : ℝ} (hx : 0 ≤ x) :
    (ofPdf (F.pdf s)).real (Set.Iic x) = around (unfolded F) 0 (x / s) := by
  rw [half_folded F hF hs, cdf_folded (unfolded_peak F hF) hs hx]

/-- **C117**: the quartiles of the distributions of one family are all proportional: three values are the quartiles of one of
them exactly if they stand in the ratios of the family, and then of one only. -/
theorem half_quartiles_iff (F : HalfFam) (hF : F.Ok) :
    ∃ a c, 1 < a ∧ a < c ∧ ∀ q1 q2 q3, 0 < q1 → q1 < q2 → q2 < q3 →
      ((∃ s, 0 < s ∧ (ofPdf (F.pdf s)).real (Set.Iic q1) = 1 / 4 ∧ (ofPdf (F.pdf s)).real (Set.Iic q2) = 1 / 2 ∧
        (ofPdf (F.pdf s)).real (Set.Iic q3) = 3 / 4) ↔ q2 = a * q1 ∧ q3 = c * q1) ∧
      ∀ s s', 0 < s → 0 < s' → (ofPdf (F.pdf s)).real (Set.Iic q1) = 1 / 4 → (ofPdf (F.pdf s')).real (Set.Iic q1) = 1 / 4 →
        s = s' := by
  have hg := unfolded_peak F hF
  obtain ⟨x, hx, ex⟩ := around_exists hg (p := 1 / 4) (by norm_num) (by norm_num)
  obtain ⟨y, hy, ey⟩ := around_exists hg (p := 1 / 2) (by norm_num) (by norm_num)
  obtain ⟨z, hz, ez⟩ := around_exists hg (p := 3 / 4) (by norm_num) (by norm_num)
  have inj := (around_mono hg 0).injective
  have hxy : x < y := by rw [← (around_mono hg 0).lt_iff_lt, ex, ey]; norm_num
  have hyz : y < z := by rw [← (around_mono hg 0).lt_iff_lt, ey, ez]; norm_num
  refine ⟨y / x, z / x, by rwa [lt_div_iff₀ hx, one_mul], by gcongr, fun q1 q2 q3 h1 h2 h3 => ⟨⟨?_, ?_⟩, ?_⟩⟩
  · rintro ⟨s, hs, a, b, c⟩
    rw [hcdf_eq hF hs h1.le, ← ex] at a
    rw [hcdf_eq hF hs (by linarith), ← ey] at b
    rw [hcdf_eq hF hs (by linarith), ← ez] at c
    have a' := inj a
    have b' := inj b
    have c' := inj c
    rw [div_eq_iff hs.ne'] at a' b' c'
    rw [a', b', c']
    constructor <;> field_simp
  · rintro ⟨rfl, rfl⟩
    have hs : 0 < q1 / x := by positivity
    refine ⟨q1 / x, hs, ?_, ?_, ?_⟩
    · rw [hcdf_eq hF hs h1.le, ← ex]; congr 1; field_simp
    · rw [hcdf_eq hF hs (by positivity), ← ey]; congr 1; field_simp
    · rw [hcdf_eq hF hs (by positivity), ← ez]; congr 1; field_simp
  · intro s s' hs hs' a a'
    rw [hcdf_eq hF hs h1.le, ← a', hcdf_eq hF hs' h1.le] at a
    have := inj a
    rw [div_eq_div_iff hs.ne' hs'.ne'] at this
    exact (mul_left_cancel₀ h1.ne' this).symm

/-- **C117**: for the Exponential the third quartile has to be twice the median. -/
theorem exponential_quartiles (q1 q2 q3 : ℝ) (h1 : 0 < q1) (h2 : q1 < q2) (h3 : q2 < q3) :
    (∃ lam, 0 < lam ∧ (ofPdf (exponentialPdf lam)).real (Set.Iic q1) = 1 / 4 ∧
      (ofPdf (exponentialPdf lam)).real (Set.Iic q2) = 1 / 2 ∧ (ofPdf (exponentialPdf lam)).real (Set.Iic q3) = 3 / 4) ↔
    q3 = 2 * q2 ∧ q1 * Real.log 2 = q2 * Real.log (4 / 3) := by
  have e : ∀ lam x, 0 < lam → 0 ≤ x → (ofPdf (exponentialPdf lam)).real (Set.Iic x) = 1 - Real.exp (-(lam * x)) := by
    intro lam x hlam hx
    have h := hcdf_eq (F := .exponential) trivial (show 0 < 1 / lam by positivity) hx
    simp only [HalfFam.pdf, one_div_one_div, unfolded] at h
    rw [h, around_laplace (by positivity), show x / (1 / lam) = lam * x by field_simp]
  have l2 : 0 < Real.log 2 := Real.log_pos (by norm_num)
  have l3 : Real.log 4 = 2 * Real.log 2 := by
    rw [show (4 : ℝ) = 2 ^ 2 by norm_num, Real.log_pow]; norm_num
  have key : ∀ t c : ℝ, 0 < c → (1 - Real.exp (-t) = 1 - c⁻¹ ↔ t = Real.log c) := by
    intro t c hc
    rw [sub_right_inj, Real.exp_neg, inv_inj]
    constructor
    · intro h; rw [← h, Real.log_exp]
    · intro h; rw [h, Real.exp_log hc]
  have iff3 : ∀ lam, 0 < lam → ((ofPdf (exponentialPdf lam)).real (Set.Iic q1) = 1 / 4 ∧
      (ofPdf (exponentialPdf lam)).real (Set.Iic q2) = 1 / 2 ∧ (ofPdf (exponentialPdf lam)).real (Set.Iic q3) = 3 / 4 ↔
      lam * q1 = Real.log (4 / 3) ∧ lam * q2 = Real.log 2 ∧ lam * q3 = Real.log 4) := by
    intro lam hlam
    rw [e lam q1 hlam h1.le, e lam q2 hlam (by linarith), e lam q3 hlam (by linarith),
      show (1 : ℝ) / 4 = 1 - (4 / 3)⁻¹ by norm_num, show (1 : ℝ) / 2 = 1 - 2⁻¹ by norm_num,
      show (3 : ℝ) / 4 = 1 - 4⁻¹ by norm_num, key _ _ (by norm_num), key _ _ (by norm_num), key _ _ (by norm_num)]
  constructor
  · rintro ⟨lam, hlam, h⟩
    obtain ⟨a, b, c⟩ := (iff3 lam hlam).1 h
    rw [l3] at c
    refine ⟨mul_left_cancel₀ hlam.ne' (by rw [c, ← b]; ring), ?_⟩
    rw [← a, ← b]; ring
  · rintro ⟨a, b⟩
    have q2p : 0 < q2 := h1.trans h2
    have hlam : 0 < Real.log 2 / q2 := by positivity
    refine ⟨Real.log 2 / q2, hlam, (iff3 _ hlam).2 ⟨?_, ?_, ?_⟩⟩
    · rw [div_mul_eq_mul_div, div_eq_iff q2p.ne', mul_comm, b, mul_comm]
    · field_simp
    · rw [a, l3]; field_simp

theorem half_filled (F : HalfFam) (o d : Obj) (ho : construct F.family F.given = .ok o) (x : List ℝ)
    (kvs : List (String × ℝ)) (hk : Filled o.names o.attr x kvs) (hd : construct F.family (fun k => kvs.lookup k) = .ok d) :
    ∃ v, x = [v] ∧ law F.family d = F.values v := by
  obtain ⟨k1, k2, k3⟩ := hk
  have one : ∀ a : String, kvs.map Prod.fst = [a] → ∃ v, kvs = [(a, v)] := by
    intro a h
    match kvs, h with
    | [(a', v)], h =>
      simp only [List.map_cons, List.map_nil, List.cons.injEq, and_true] at h
      subst h
      exact ⟨v, rfl⟩
  have two : ∀ a c : String, kvs.map Prod.fst = [a, c] → ∃ v w, kvs = [(a, v), (c, w)] := by
    intro a c h
    match kvs, h with
    | [(a', v), (c', w)], h =>
      simp only [List.map_cons, List.map_nil, List.cons.injEq, and_true] at h
      obtain ⟨rfl, rfl⟩ := h
      exact ⟨v, w, rfl⟩
  cases F <;>
    simp [construct, HalfFam.family, HalfFam.given, parametrize, exponentialParam, halfNormalParam, halfStudentTParam,
      simpleParam, simpleFam, allNotNone, blank, Obj.setAll, Obj.set, Except.ok_bind', Except.pure_eq] at ho <;>
    subst ho <;> dsimp only at k1 k2 k3
  case halfStudentT n =>
    obtain ⟨v, w, rfl⟩ := two _ _ k1
    have e := k2 ("nu", v) (by simp) n (by simp [Function.update])
    simp [Function.update] at k3
    simp only at e
    subst e
    simp [construct, HalfFam.family, parametrize, halfStudentTParam, halfStudentTUpdate, List.lookup, allNotNone, blank,
      Obj.setAll, Obj.set, Except.ok_bind', Except.pure_eq] at hd
    subst hd
    exact ⟨w, k3.symm, by simp [law, lawAttrs, HalfFam.family, HalfFam.values, Obj.setAll, Obj.set, Function.update]⟩
  all_goals
    obtain ⟨v, rfl⟩ := one _ k1
    simp [Function.update] at k3
    simp [construct, HalfFam.family, parametrize, exponentialParam, exponentialUpdate, halfNormalParam, halfNormalUpdate,
      simpleParam, simpleFam, simpleUpdate, List.lookup, allNotNone, blank, Obj.setAll, Obj.set, Except.ok_bind',
      Except.pure_eq] at hd
    subst hd
    exact ⟨v, k3.symm, by simp [law, lawAttrs, HalfFam.family, HalfFam.values, Obj.setAll, Obj.set, Function.update]⟩

theorem half_free (F : HalfFam) (o : Obj) (ho : construct F.family F.given = .ok o) :
    freeBounds o F.box = [(((eps : ℝ) : EReal), ⊤)] := by
  cases F <;>
    simp [construct, HalfFam.family, HalfFam.given, parametrize, exponentialParam, halfNormalParam, halfStudentTParam,
      simpleParam, simpleFam, allNotNone, blank, Obj.setAll, Obj.set, Except.ok_bind', Except.pure_eq] at ho <;>
    subst ho <;>
    simp [freeBounds, getFixedParams, splitStep, Function.update, List.zipIdx, HalfFam.box]

theorem half_in (v : ℝ) : InBox [(((eps : ℝ) : EReal), ⊤)] [v] ↔ eps ≤ v := by
  unfold InBox
  constructor
  · intro h
    have := (h.2 0 (by simp) (by simp)).1
    simpa using this
  · intro h
    refine ⟨rfl, fun i hi _ => ?_⟩
    simp only [List.length_cons, List.length_nil] at hi
    interval_cases i <;> simp [h]

theorem half_choice (F : HalfFam) (o : Obj) (ho : construct F.family F.given = .ok o) (v : ℝ) (hv : eps ≤ v) :
    ∃ d, Choice F.family o (freeBounds o F.box) d ∧ law F.family d = F.values v := by
  rw [half_free F o ho]
  have hin := (half_in v).2 hv
  cases F <;>
    simp [construct, HalfFam.family, HalfFam.given, parametrize, exponentialParam, halfNormalParam, halfStudentTParam,
      simpleParam, simpleFam, allNotNone, blank, Obj.setAll, Obj.set, Except.ok_bind', Except.pure_eq] at ho <;>
    subst ho
  case halfStudentT n =>
    refine ⟨_, ⟨fun k => if k = "nu" then some n else if k = "sigma" then some v else none,
      by simp [construct, HalfFam.family, parametrize, halfStudentTParam, halfStudentTUpdate, allNotNone, Except.ok_bind',
        Except.pure_eq]; rfl, ?_, ?_, ?_⟩, ?_⟩
    · intro k
      simp only [List.mem_cons, List.not_mem_nil, or_false]
      split_ifs <;> simp_all
    · intro k hk v hv
      simp only [List.mem_cons, List.not_mem_nil, or_false] at hk
      rcases hk with rfl | rfl <;> simp [Function.update] at hv ⊢
      exact hv
    · simpa [Function.update] using hin
    · simp [law, lawAttrs, HalfFam.family, HalfFam.values, Obj.setAll, Obj.set, Function.update]
  case exponential =>
    refine ⟨_, ⟨fun k => if k = "lam" then some v else none,
      by simp [construct, HalfFam.family, parametrize, exponentialParam, exponentialUpdate, allNotNone, Except.ok_bind',
        Except.pure_eq]; rfl, ?_, ?_, ?_⟩, ?_⟩
    · intro k
      simp only [List.mem_cons, List.not_mem_nil, or_false]
      split_ifs <;> simp_all
    · intro k hk v hv
      simp [Function.update] at hv
    · simpa [Function.update] using hin
    · simp [law, lawAttrs, HalfFam.family, HalfFam.values, Obj.setAll, Obj.set, Function.update]
  case halfNormal =>
    refine ⟨_, ⟨fun k => if k = "sigma" then some v else none,
      by simp [construct, HalfFam.family, parametrize, halfNormalParam, halfNormalUpdate, allNotNone, Except.ok_bind',
        Except.pure_eq]; rfl, ?_, ?_, ?_⟩, ?_⟩
    · intro k
      simp only [List.mem_cons, List.not_mem_nil, or_false]
      split_ifs <;> simp_all
    · intro k hk v hv
      simp [Function.update] at hv
    · simpa [Function.update] using hin
    · simp [law, lawAttrs, HalfFam.family, HalfFam.values, Obj.setAll, Obj.set, Function.update]
  case halfCauchy =>
    refine ⟨_, ⟨fun k => if k = "beta" then some v else none,
      by simp [construct, HalfFam.family, parametrize, simpleParam, simpleFam, simpleUpdate, allNotNone]; rfl, ?_, ?_, ?_⟩, ?_⟩
    · intro k
      simp only [List.mem_cons, List.not_mem_nil, or_false]
      split_ifs <;> simp_all
    · intro k hk v hv
      simp [Function.update] at hv
    · simpa [Function.update] using hin
    · simp [law, lawAttrs, HalfFam.family, HalfFam.values, Obj.setAll, Obj.set, Function.update]

/-- **C117**: quartile.  With an optimiser that finds the minimum, the distribution returned has the three quartiles asked for
exactly if they are those of a distribution of the family with an admissible parameter, and it is that one. -/
theorem quartile_half (F : HalfFam) (hF : F.Ok) (o o1 : Obj) (ho : construct F.family F.given = .ok o)
    (cdf : List (Option ℝ) → ℝ → ℝ)
    (hcdf : ∀ v, 0 < v → ∀ x, cdf (F.values v) x = (ofPdf (F.pdf (F.scale v))).real (Set.Iic x))
    (q1 q2 q3 : ℝ) (h1 : 0 < q1) (h2 : q1 < q2) (h3 : q2 < q3) (opt : Optimiser) (G : List ℝ → Except Err (List ℝ))
    (hG : IsObjective F.family o.names o.attr (fun l => [cdf l q1 - 1 / 4, cdf l q2 - 1 / 2, cdf l q3 - 3 / 4]) G)
    (hfind : Finds opt G (startAt o o1) (freeBounds o F.box)) :
    Gives (optimizeQuartile opt F.family cdf q1 q2 q3 o.names F.box (getFixedParams o).1 (getFixedParams o).2 o1) fun r =>
      ∃ v, eps ≤ v ∧ law F.family r.2 = F.values v ∧
        ∀ v', eps ≤ v' → (ofPdf (F.pdf (F.scale v'))).real (Set.Iic q1) = 1 / 4 →
          (ofPdf (F.pdf (F.scale v'))).real (Set.Iic q2) = 1 / 2 → (ofPdf (F.pdf (F.scale v'))).real (Set.Iic q3) = 3 / 4 →
          v = v' := by
  have hep : (0 : ℝ) < eps := by unfold eps; positivity
  have he : quartileResidual cdf q1 q2 q3 = fun l => [cdf l q1 - 1 / 4, cdf l q2 - 1 / 2, cdf l q3 - 3 / 4] := by
    funext l; unfold quartileResidual; norm_num
  have hsc : ScaledNames F.family o.names := by
    intro h; cases F <;> simp [HalfFam.family] at h
  obtain ⟨x, o', e1, e2, ⟨kvs, d, e3, e4, e5, -⟩, e6⟩ := fit_best opt F.family o o1 hsc F.box _ G hG hfind
  obtain ⟨v, rfl, e7⟩ := half_filled F o d ho x kvs e3 e4
  rw [half_free F o ho, half_in] at e2
  have hv : 0 < v := hep.trans_le e2
  refine ⟨(_, o'), by unfold optimizeQuartile; rw [he]; exact e1, v, e2, e5.trans e7, fun v' hv' a b c => ?_⟩
  have hv'' : 0 < v' := hep.trans_le hv'
  obtain ⟨d', hd', hl'⟩ := half_choice F o ho v' hv'
  obtain ⟨r, hr, r1, r2, r3⟩ := quartile_exact opt F.family cdf q1 q2 q3 o o1 hsc F.box G hG hfind d' hd'
    (by rw [hl', hcdf _ hv'', a]) (by rw [hl', hcdf _ hv'', b]) (by rw [hl', hcdf _ hv'', c])
  have : r = ([v], o') := by
    unfold optimizeQuartile at hr
    rw [he, e1] at hr
    simpa using hr.symm
  subst this
  dsimp only at r1 r2 r3
  rw [e5, e7, hcdf _ hv] at r1
  obtain ⟨_, _, _, _, hq⟩ := half_quartiles_iff F hF
  have hs := (hq q1 q2 q3 h1 h2 h3).2 _ _ (scale_pos F hv) (scale_pos F hv'') r1 a
  cases F <;> simp only [HalfFam.scale] at hs
  · rw [one_div, one_div, inv_inj] at hs; exact hs
  all_goals exact hs

/-! The hypotheses are met. -/

/-- the distributions of a family as continuous bases -/
private noncomputable def halfBase (F : HalfFam) (hF : F.Ok) (s : ℝ) : Base :=
  if hs : 0 < s then
    haveI : IsProbabilityMeasure (volume.withDensity fun x => ENNReal.ofReal (F.pdf s x)) := by
      have := folded_prob (unfolded_peak F hF) hs
      rw [half_folded F hF hs]
      exact this
    densityBase (F.pdf s) (by rw [half_folded F hF hs]; exact folded_meas (unfolded_peak F hF) s)
      (by rw [half_folded F hF hs]; exact folded_nonneg (unfolded_peak F hF) hs) ⊥ ⊤ (by simp)
  else unif 0 1 (by norm_num)

private theorem halfBase_law (F : HalfFam) (hF : F.Ok) (s : ℝ) (hs : 0 < s) :
    (halfBase F hF s).discrete = false ∧ (halfBase F hF s).law = ofPdf (F.pdf s) := by
  unfold halfBase
  rw [dif_pos hs]
  exact ⟨rfl, rfl⟩

/-- `maxent(Exponential(), 1, 3, 0.9)`: the two runs end at rates 2 and 1/2; the first is returned -/
example : ∃ (o o2 : Obj) (r : Opt) (err : List ℝ → Option ℝ) (done : List Opt),
    construct .exponential HalfFam.exponential.given = .ok o ∧
    (∀ v, 0 < v → err [v] = some |probBound (halfBase .exponential trivial (1 / v)) 1 3 (9 / 10) none|) ∧
    (∀ s, 0 < s → massOf (HalfFam.exponential.pdf s) 1 3 + 1 / 10000 ≤ 9 / 10) ∧
    (∀ r ∈ done, ∃ v, 0 < v ∧ r.x = [v] ∧ r.value = some ((-entropyOf (HalfFam.exponential.pdf (1 / v)) : ℝ) : EReal)) ∧
    done.map (fun r => r.x) = [[2], [1 / 2]] ∧
    optimizeMaxEnt .exponential o.names (getFixedParams o).1 (getFixedParams o).2 err (done.map .ok ++ [.error .valueError]) o =
      .ok (r, o2) := by
  have hun : ∀ s, 0 < s → massOf (HalfFam.exponential.pdf s) 1 3 + 1 / 10000 ≤ 9 / 10 := by
    intro s hs
    by_contra hc
    have h := (exponential_reach 1 3 (massOf (HalfFam.exponential.pdf s) 1 3) one_pos (by norm_num)
      (by linarith [not_le.1 hc])).1 ⟨1 / s, by positivity, rfl⟩
    have e : ((1 : ℝ) / 3) ^ ((1 : ℝ) / (3 - 1)) = √(1 / 3) := by
      rw [Real.sqrt_eq_rpow]; norm_num
    rw [e] at h
    have hs : √((1 : ℝ) / 3) < 5774 / 10000 := by
      rw [Real.sqrt_lt' (by norm_num)]; norm_num
    linarith [not_le.1 hc]
  set val : ℝ → Option EReal := fun v => some ((-entropyOf (HalfFam.exponential.pdf (1 / v)) : ℝ) : EReal) with hval
  set err : List ℝ → Option ℝ := fun x => match x with
    | [v] => some |probBound (halfBase .exponential trivial (1 / v)) 1 3 (9 / 10) none|
    | _ => none with herr
  obtain ⟨o, ho⟩ : ∃ o, construct .exponential HalfFam.exponential.given = .ok o := by
    simp [construct, HalfFam.given, parametrize, exponentialParam, allNotNone, Except.ok_bind', Except.pure_eq]
  have hap : ∀ v, ∃ o2, applyCandidate .exponential o.names (getFixedParams o).1 (getFixedParams o).2 [v] o = .ok o2 := by
    intro v
    simp [construct, HalfFam.given, parametrize, exponentialParam, allNotNone, Except.ok_bind', Except.pure_eq, Obj.setAll,
      Obj.set, blank] at ho
    subst ho
    simp [applyCandidate, getFixedParams, splitStep, getParams, getParamsFrom, Function.update, Except.map, Except.ok_bind',
      parametrize, kwCall, List.lookup, exponentialParam, allNotNone, Except.pure_eq, List.zipIdx]
  have hsel := maxent_fallback err [⟨[2], val 2⟩, ⟨[1 / 2], val (1 / 2)⟩] [.error .valueError] (by simp) (by
    intro r hr w hw
    have key : ∀ v, 0 < v → ∀ e, err [v] = some e → ¬ e < 1 / 10000 := by
      intro v hv e he
      have hs : 0 < 1 / v := by positivity
      obtain ⟨b1, b2⟩ := halfBase_law .exponential trivial (1 / v) hs
      simp only [herr, Option.some.injEq] at he
      rw [← he, constraint_is_mass _ _ _ _ (by norm_num) (by rw [b1]; simp), b2]
      change ¬ |massOf _ 1 3 - _| < _
      have := hun _ hs
      rw [abs_of_neg (by linarith)]
      linarith
    obtain ⟨⟨e, he, hlt⟩, -⟩ := hw
    simp only [List.mem_cons, List.not_mem_nil, or_false] at hr
    rcases hr with rfl | rfl
    · exact key 2 two_pos e he hlt
    · exact key (1 / 2) (by norm_num) e he hlt)
  obtain ⟨o2, ho2⟩ := hap 2
  refine ⟨o, o2, ⟨[2], val 2⟩, err, [⟨[2], val 2⟩, ⟨[1 / 2], val (1 / 2)⟩], ho, fun v _ => rfl, hun, ?_, rfl, ?_⟩
  · intro r hr
    simp only [List.mem_cons, List.not_mem_nil, or_false] at hr
    rcases hr with rfl | rfl
    · exact ⟨2, two_pos, rfl, rfl⟩
    · exact ⟨1 / 2, by norm_num, rfl, rfl⟩
  · unfold optimizeMaxEnt
    rw [hsel]
    simp only [Except.ok_bind']
    rw [ho2]
    rfl

/-- `maxent(HalfNormal(), 1, 2, mass)`: a run that ends at the narrower of the two solutions and one at the wider -/
example : ∃ (p s₁ s₂ : ℝ) (err : List ℝ → Option ℝ) (done : List Opt), 0 < s₁ ∧ s₁ < s₂ ∧
    (∀ s, 0 < s → (massOf (HalfFam.halfNormal.pdf s) 1 2 = p ↔ s = s₁ ∨ s = s₂)) ∧
    (∀ v, 0 < v → err [v] = some |probBound (halfBase .halfNormal trivial (HalfFam.halfNormal.scale v)) 1 2 p none|) ∧
    (∀ r ∈ done, ∃ v, 0 < v ∧ r.x = [v] ∧
      r.value = some ((-entropyOf (HalfFam.halfNormal.pdf (HalfFam.halfNormal.scale v)) : ℝ) : EReal)) ∧
    (∀ r' ∈ done, ∀ v', r'.x = [v'] → |massOf (HalfFam.halfNormal.pdf (HalfFam.halfNormal.scale v')) 1 2 - p| < 1 / 10000 →
      massOf (HalfFam.halfNormal.pdf (HalfFam.halfNormal.scale v')) 1 2 = p) ∧
    (∃ r' ∈ done, ∃ v', r'.x = [v'] ∧ |massOf (HalfFam.halfNormal.pdf (HalfFam.halfNormal.scale v')) 1 2 - p| < 1 / 10000) ∧
    done.length = 2 := by
  obtain ⟨s₀, top, h0, t0, -, -, -, hp⟩ := half_two .halfNormal trivial 1 2 one_pos (by norm_num)
  obtain ⟨s₁, s₂, a, b, c, d, -⟩ := hp (top / 2) (by linarith) (by linarith)
  have b2 : 0 < s₂ := by linarith
  have m1 := (d s₁ a).2 (.inl rfl)
  have m2 := (d s₂ b2).2 (.inr rfl)
  refine ⟨top / 2, s₁, s₂, fun x => match x with
    | [v] => some |probBound (halfBase .halfNormal trivial (HalfFam.halfNormal.scale v)) 1 2 (top / 2) none|
    | _ => none, [⟨[s₁], some ((-entropyOf (HalfFam.halfNormal.pdf s₁) : ℝ) : EReal)⟩,
      ⟨[s₂], some ((-entropyOf (HalfFam.halfNormal.pdf s₂) : ℝ) : EReal)⟩], a, b.trans c, d, fun v _ => rfl, ?_, ?_, ?_, rfl⟩
  · intro r hr
    simp only [List.mem_cons, List.not_mem_nil, or_false] at hr
    rcases hr with rfl | rfl
    · exact ⟨s₁, a, rfl, rfl⟩
    · exact ⟨s₂, b2, rfl, rfl⟩
  · intro r hr v' hv _
    simp only [List.mem_cons, List.not_mem_nil, or_false] at hr
    rcases hr with rfl | rfl <;> simp only [List.cons.injEq, and_true] at hv <;> subst hv
    · exact m1
    · exact m2
  · refine ⟨_, List.mem_cons_self, s₁, rfl, ?_⟩
    simp only [HalfFam.scale]
    rw [m1, sub_self, abs_zero]
    norm_num

/-- a HalfCauchy elicited from its own quartiles -/
example : ∃ (o : Obj) (q1 q2 q3 : ℝ) (cdf : List (Option ℝ) → ℝ → ℝ) (opt : Optimiser) (G : List ℝ → Except Err (List ℝ)),
    construct (.simple .halfCauchy) HalfFam.halfCauchy.given = .ok o ∧ 0 < q1 ∧ q1 < q2 ∧ q2 < q3 ∧
    (∀ v, 0 < v → ∀ x, cdf (HalfFam.halfCauchy.values v) x = (ofPdf (HalfFam.halfCauchy.pdf v)).real (Set.Iic x)) ∧
    IsObjective (.simple .halfCauchy) o.names o.attr (fun l => [cdf l q1 - 1 / 4, cdf l q2 - 1 / 2, cdf l q3 - 3 / 4]) G ∧
    Finds opt G (startAt o o) (freeBounds o HalfFam.halfCauchy.box) := by
  obtain ⟨a, c, ha, hac, hq⟩ := half_quartiles_iff .halfCauchy trivial
  obtain ⟨s, hs, e1, e2, e3⟩ := (hq 1 a c one_pos ha hac).1.2 ⟨by ring, by ring⟩
  obtain ⟨o, ho⟩ : ∃ o, construct (.simple .halfCauchy) HalfFam.halfCauchy.given = .ok o := ⟨_, rfl⟩
  have hbox := half_free .halfCauchy o ho
  have e : ∀ x, 0 ≤ x → (ofPdf (HalfFam.halfCauchy.pdf 1)).real (Set.Iic (x / s)) =
      (ofPdf (HalfFam.halfCauchy.pdf s)).real (Set.Iic x) := by
    intro x hx
    rw [hcdf_eq (F := .halfCauchy) trivial one_pos (by positivity), hcdf_eq (F := .halfCauchy) trivial hs hx, div_one]
  set cdf : List (Option ℝ) → ℝ → ℝ := fun l x =>
    (ofPdf (HalfFam.halfCauchy.pdf ((l[0]?.join).getD 0))).real (Set.Iic x) with hcdf
  set res : List (Option ℝ) → List ℝ := fun l =>
    [cdf l (1 / s) - 1 / 4, cdf l (a / s) - 1 / 2, cdf l (c / s) - 3 / 4] with hres
  set G : List ℝ → Except Err (List ℝ) := fun x => if x.length = 1 then
    .ok (res (x.map some)) else .error .valueError with hG
  refine ⟨o, 1 / s, a / s, c / s, cdf, fun _ _ => .ok (.ask [5] fun _ => .stop [1]), G, ho, by positivity, by gcongr, by gcongr,
    fun v _ x => rfl, ⟨?_, ?_⟩, ?_⟩
  · intro cand kvs hk
    simp [construct, HalfFam.given, parametrize, simpleParam, simpleFam, allNotNone, blank, Obj.setAll, Obj.set] at ho
    subst ho
    obtain ⟨k1, k2, k3⟩ := hk
    match kvs, k1, k2, k3 with
    | [(a, m)], k1, k2, k3 =>
      simp only [List.map_cons, List.map_nil, List.cons.injEq, and_true] at k1
      subst k1
      simp [Function.update] at k3
      subst k3
      simp [hG, construct, parametrize, simpleParam, simpleFam, simpleUpdate, allNotNone, blank, Obj.setAll, Obj.set,
        List.lookup, Except.map, law, lawAttrs, Function.update, hres]
  · intro cand hc
    simp [construct, HalfFam.given, parametrize, simpleParam, simpleFam, allNotNone, blank, Obj.setAll, Obj.set] at ho
    subst ho
    simp [Function.update] at hc
    simp [hG, hc]
  · rw [hbox]
    have hzero : res [some 1] = [0, 0, 0] := by
      simp only [hres, hcdf, List.getElem?_cons_zero, Option.join_some, Option.getD_some]
      rw [e 1 zero_le_one, e a (by linarith), e c (by linarith), e1, e2, e3]
      norm_num
    refine ⟨_, rfl, [1], [0, 0, 0], by simp [answer, hG], (half_in 1).2 (by unfold eps; norm_num), ?_, ?_⟩
    · rw [← hzero]; simp [hG]
    · intro y _ r' _
      have : 0 ≤ cost r' := List.sum_nonneg (by
        intro a ha
        obtain ⟨b, -, rfl⟩ := List.mem_map.1 ha
        positivity)
      simpa [cost] using this

end Verif.Props
