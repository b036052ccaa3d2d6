import Verif.Lemmas.ShiftGiven
import Verif.Lemmas.PeakGiven
import Verif.Props.MaxentHdi
import Verif.Props.PeakGiven

/-!
# C133: maxent with the location or the scale given, families that need not be symmetric
-/

namespace Verif.Props
open MeasureTheory Verif Verif.Spec Verif.Param Verif.Optim Verif.NumFit Verif.Modifier Verif.LocScale Verif.Lemmas.MaxentHdi
open Verif.ShiftGiven Filter Topology

private theorem mass_up {F : ShiftFam} (hF : F.Ok) (m : ℝ) {s : ℝ} (hs : 0 < s) {l u : ℝ} (h : l ≤ u) :
    massOf (F.pdf m s) l u = upTo (F.pdf 0 1) ((u - m) * s⁻¹) - upTo (F.pdf 0 1) ((l - m) * s⁻¹) := by
  have hg := (shift_hump F hF).choose_spec
  rw [shift_moved F hF m hs, hump_mass hg m hs h, area_up hg]
  rfl

private theorem ent_up {F : ShiftFam} (hF : F.Ok) (m : ℝ) {s : ℝ} (hs : 0 < s) :
    entropyOf (F.pdf m s) = Real.log s + entropyOf (F.pdf 0 1) := by
  rw [shift_moved F hF m hs, hump_entropy (shift_hump F hF).choose_spec m hs]

private theorem below_up {F : ShiftFam} (hF : F.Ok) : F.below = upTo (F.pdf 0 1) 0 := by
  have h := Verif.Lemmas.MatchLine.cdf_member F hF 0 one_pos 0
  rw [sub_zero, zero_div] at h
  rw [← h, ShiftFam.below, measureReal_def, measureReal_def]
  congr 1
  refine measure_congr (Iio_ae_eq_Iic' ?_)
  unfold ofPdf
  rw [withDensity_apply _ (measurableSet_singleton _)]
  simp

/-- **C133**: of two distributions with the same location the one with the larger scale has the larger entropy, and the entropy
does not depend on the location. -/
theorem shift_entropy (F : ShiftFam) (hF : F.Ok) (m m' s s' : ℝ) (hs : 0 < s) (hs' : 0 < s') :
    entropyOf (F.pdf m s) < entropyOf (F.pdf m' s') ↔ s < s' := by
  rw [ent_up hF m hs, ent_up hF m' hs', add_lt_add_iff_right, Real.log_lt_log_iff hs hs']

/-- **C133**: location given inside the interval: every mass is that of exactly one scale. -/
theorem shift_location_inside (F : ShiftFam) (hF : F.Ok) (l u m p : ℝ) (h1 : l < m) (h2 : m < u) (h0 : 0 < p) (hp : p < 1) :
    ∃ s, 0 < s ∧ ∀ s', 0 < s' → (massOf (F.pdf m s') l u = p ↔ s' = s) := by
  have hg := (shift_hump F hF).choose_spec
  have hm := span_mono hg (a := m - l) (b := u - m) (by linarith) (by linarith) (by linarith)
  have ht : Tendsto (fun x => upTo (F.pdf 0 1) ((u - m) * x) - upTo (F.pdf 0 1) (-((m - l) * x))) atTop (𝓝 (1 - 0)) := by
    refine (up_far hg (by linarith)).sub ?_
    have := up_near hg (show l - m < 0 by linarith)
    refine this.congr fun x => ?_
    congr 1; ring
  rw [sub_zero] at ht
  have hc : Continuous fun x => upTo (F.pdf 0 1) ((u - m) * x) - upTo (F.pdf 0 1) (-((m - l) * x)) := by
    have := span_cont hg (l - m) (u - m)
    refine this.congr fun x => ?_
    congr 2; ring
  obtain ⟨x, hx, e⟩ := (grow hc hm (by simp) ht h0).1 hp
  refine ⟨x⁻¹, inv_pos.2 hx, fun s' hs' => ?_⟩
  rw [mass_up hF m hs' (by linarith), show (l - m) * s'⁻¹ = -((m - l) * s'⁻¹) by ring, ← e]
  constructor
  · intro h
    rw [← hm.injective h, inv_inv]
  · rintro rfl
    rw [inv_inv]

/-- **C133**: location given at the lower end: the masses below the probability of the values above the location are that of
exactly one scale each, the others of none; at the upper end the same with the probability of the values below it. -/
theorem shift_location_end (F : ShiftFam) (hF : F.Ok) (l u p : ℝ) (h : l < u) (h0 : 0 < p) :
    (p < 1 - F.below → ∃ s, 0 < s ∧ ∀ s', 0 < s' → (massOf (F.pdf l s') l u = p ↔ s' = s)) ∧
    (1 - F.below ≤ p → ∀ s, 0 < s → massOf (F.pdf l s) l u ≠ p) ∧
    (p < F.below → ∃ s, 0 < s ∧ ∀ s', 0 < s' → (massOf (F.pdf u s') l u = p ↔ s' = s)) ∧
    (F.below ≤ p → ∀ s, 0 < s → massOf (F.pdf u s) l u ≠ p) := by
  have hg := (shift_hump F hF).choose_spec
  have hul := sub_pos.2 h
  rw [below_up hF]
  have m1 := span_mono hg (a := 0) (b := u - l) le_rfl hul.le (by linarith)
  have m2 := span_mono hg (a := u - l) (b := 0) hul.le le_rfl (by linarith)
  simp only [zero_mul, neg_zero] at m1 m2
  have c1 : Continuous fun x => upTo (F.pdf 0 1) ((u - l) * x) - upTo (F.pdf 0 1) 0 := by
    refine (span_cont hg 0 (u - l)).congr fun x => ?_
    simp
  have c2 : Continuous fun x => upTo (F.pdf 0 1) 0 - upTo (F.pdf 0 1) (-((u - l) * x)) := by
    refine (span_cont hg (-(u - l)) 0).congr fun x => ?_
    rw [zero_mul, neg_mul]
  have t1 : Tendsto (fun x => upTo (F.pdf 0 1) ((u - l) * x) - upTo (F.pdf 0 1) 0) atTop (𝓝 (1 - upTo (F.pdf 0 1) 0)) :=
    (up_far hg hul).sub_const _
  have t2 : Tendsto (fun x => upTo (F.pdf 0 1) 0 - upTo (F.pdf 0 1) (-((u - l) * x))) atTop (𝓝 (upTo (F.pdf 0 1) 0 - 0)) := by
    refine Tendsto.const_sub _ ((up_near hg (show -(u - l) < 0 by linarith)).congr fun x => ?_)
    rw [neg_mul]
  rw [sub_zero] at t2
  have g1 := grow c1 m1 (by simp) t1 h0
  have g2 := grow c2 m2 (by simp) t2 h0
  have e1 : ∀ s, 0 < s → massOf (F.pdf l s) l u = upTo (F.pdf 0 1) ((u - l) * s⁻¹) - upTo (F.pdf 0 1) 0 := by
    intro s hs
    rw [mass_up hF l hs h.le, sub_self, zero_mul]
  have e2 : ∀ s, 0 < s → massOf (F.pdf u s) l u = upTo (F.pdf 0 1) 0 - upTo (F.pdf 0 1) (-((u - l) * s⁻¹)) := by
    intro s hs
    rw [mass_up hF u hs h.le, sub_self, zero_mul, show (l - u) * s⁻¹ = -((u - l) * s⁻¹) by ring]
  refine ⟨fun hp => ?_, fun hp s hs => ?_, fun hp => ?_, fun hp s hs => ?_⟩
  · obtain ⟨x, hx, e⟩ := g1.1 hp
    refine ⟨x⁻¹, inv_pos.2 hx, fun s' hs' => ?_⟩
    rw [e1 s' hs', ← e]
    constructor
    · intro h
      rw [← m1.injective h, inv_inv]
    · rintro rfl
      rw [inv_inv]
  · rw [e1 s hs]
    exact g1.2 hp _
  · obtain ⟨x, hx, e⟩ := g2.1 hp
    refine ⟨x⁻¹, inv_pos.2 hx, fun s' hs' => ?_⟩
    rw [e2 s' hs', ← e]
    constructor
    · intro h
      rw [← m2.injective h, inv_inv]
    · rintro rfl
      rw [inv_inv]
  · rw [e2 s hs]
    exact g2.2 hp _

/-- **C133**: location given outside the interval: there is a largest mass, below that of the values on the side of the
interval; a larger mass is that of no scale, for the others there is a largest scale with the mass, and below the largest mass
there is another, smaller one. -/
theorem shift_location_outside (F : ShiftFam) (hF : F.Ok) (l u m : ℝ) (h : l < u) (hm : m < l ∨ u < m) :
    ∃ top s₀, 0 < top ∧ (m < l → top < 1 - F.below) ∧ (u < m → top < F.below) ∧
      0 < s₀ ∧ massOf (F.pdf m s₀) l u = top ∧ (∀ s, 0 < s → massOf (F.pdf m s) l u ≤ top) ∧
      ∀ p, 0 < p → p ≤ top → ∃ s₂, 0 < s₂ ∧ massOf (F.pdf m s₂) l u = p ∧
        (∀ s, 0 < s → massOf (F.pdf m s) l u = p → s ≤ s₂) ∧
        (p < top → ∃ s₁, 0 < s₁ ∧ s₁ < s₂ ∧ massOf (F.pdf m s₁) l u = p) := by
  have hg := (shift_hump F hF).choose_spec
  set f : ℝ → ℝ := fun x => upTo (F.pdf 0 1) ((u - m) * x) - upTo (F.pdf 0 1) ((l - m) * x) with hf
  have hpos : ∀ x, 0 < x → 0 < f x := by
    intro x hx
    have := up_mono hg (mul_lt_mul_of_pos_right (show l - m < u - m by linarith) hx)
    simp only [hf]; linarith
  have ht : Tendsto f atTop (𝓝 0) := by
    rcases hm with hm | hm
    · have := (up_far hg (show 0 < u - m by linarith)).sub (up_far hg (show 0 < l - m by linarith))
      rwa [sub_self] at this
    · have := (up_near hg (show u - m < 0 by linarith)).sub (up_near hg (show l - m < 0 by linarith))
      rwa [sub_self] at this
  have e : ∀ s, 0 < s → massOf (F.pdf m s) l u = f s⁻¹ := fun s hs => mass_up hF m hs h.le
  obtain ⟨x₀, h0, hmax, hsol⟩ := bump (span_cont hg (l - m) (u - m)) (by simp) hpos ht
  refine ⟨f x₀, x₀⁻¹, hpos _ h0, fun hm' => ?_, fun hm' => ?_, inv_pos.2 h0, by rw [e _ (inv_pos.2 h0), inv_inv], fun s hs => ?_,
    fun p hp hle => ?_⟩
  · rw [below_up hF]
    have h1 := up_lt hg ((u - m) * x₀)
    have h2 := up_mono hg (mul_pos (show 0 < l - m by linarith) h0)
    simp only [hf]; linarith
  · rw [below_up hF]
    have h1 := up_pos hg ((l - m) * x₀)
    have h2 := up_mono hg (mul_neg_of_neg_of_pos (show u - m < 0 by linarith) h0)
    simp only [hf]; linarith
  · rw [e s hs]
    exact hmax _ (inv_pos.2 hs)
  · obtain ⟨x₁, p1, e1, least, other⟩ := hsol p hp hle
    refine ⟨x₁⁻¹, inv_pos.2 p1, by rw [e _ (inv_pos.2 p1), inv_inv]; exact e1, fun s hs hms => ?_, fun hlt => ?_⟩
    · rw [e s hs] at hms
      have := least _ (inv_pos.2 hs) hms
      rwa [le_inv_comm₀ p1 hs] at this
    · obtain ⟨x₂, h12, e2⟩ := other hlt
      have p2 := p1.trans h12
      exact ⟨x₂⁻¹, inv_pos.2 p2, inv_strictAnti₀ p1 h12, by rw [e _ (inv_pos.2 p2), inv_inv]; exact e2⟩

/-- **C133**: scale given: there is one location with the largest mass, and then the interval is a shortest one with this mass;
every smaller mass is that of exactly two locations, one on each side, and both have the same entropy. -/
theorem shift_scale_given (F : ShiftFam) (hF : F.Ok) (l u s : ℝ) (h : l < u) (hs : 0 < s) :
    ∃ m₀ top, 0 < top ∧ top < 1 ∧ massOf (F.pdf m₀ s) l u = top ∧ Shortest (F.pdf m₀ s) top l u ∧
      (∀ m, m ≠ m₀ → massOf (F.pdf m s) l u < top) ∧
      ∀ p, 0 < p → p < top → ∃ m₁ m₂, m₁ < m₀ ∧ m₀ < m₂ ∧ (∀ m, massOf (F.pdf m s) l u = p ↔ m = m₁ ∨ m = m₂) ∧
        entropyOf (F.pdf m₁ s) = entropyOf (F.pdf m₂ s) := by
  have hg := (shift_hump F hF).choose_spec
  have hL : 0 < (u - l) / s := div_pos (by linarith) hs
  obtain ⟨w₀, he, hmax, htwo⟩ := slide_two hg hL
  have e : ∀ m, massOf (F.pdf m s) l u = area (F.pdf 0 1) ((l - m) / s) ((l - m) / s + (u - l) / s) := by
    intro m
    rw [shift_moved F hF m hs, hump_mass hg m hs h.le]
    congr 1
    rw [← add_div]; congr 1; ring
  have back : ∀ w, (l - (l - s * w)) / s = w := by intro w; field_simp; ring
  have inv : ∀ m w, (l - m) / s = w ↔ m = l - s * w := by
    intro m w
    rw [div_eq_iff hs.ne']
    constructor <;> intro h <;> linarith
  have e0 : massOf (F.pdf (l - s * w₀) s) l u = area (F.pdf 0 1) w₀ (w₀ + (u - l) / s) := by rw [e, back]
  refine ⟨l - s * w₀, area (F.pdf 0 1) w₀ (w₀ + (u - l) / s), area_pos hg (by linarith), area_lt_one hg (by linarith), e0, ?_,
    fun m hne => ?_, fun p hp hlt => ?_⟩
  · refine (best_iff_hdi F hF _ s l u _ hs h e0).2.2 ?_
    rw [shift_moved F hF _ hs]
    unfold moved
    rw [back, he]
    congr 2
    field_simp
    ring
  · rw [e]
    exact hmax _ fun h' => hne ((inv _ _).1 h')
  · obtain ⟨w₁, w₂, h1, h2, hsol⟩ := htwo p hp hlt
    refine ⟨l - s * w₂, l - s * w₁, ?_, ?_, fun m => ?_, by rw [ent_up hF _ hs, ent_up hF _ hs]⟩
    · have := mul_lt_mul_of_pos_left h2 hs; linarith
    · have := mul_lt_mul_of_pos_left h1 hs; linarith
    · rw [e, hsol, inv, inv, or_comm]

/-! ### maxent -/

theorem shift_location_candidate (F : ShiftFam) (m : ℝ) (o : Obj) (ho : construct F.family (F.with F.locName m) = .ok o) (s : ℝ)
    (o1 o2 : Obj) (h : applyCandidate F.family o.names (getFixedParams o).1 (getFixedParams o).2 [s] o1 = .ok o2) :
    law F.family o2 = F.values m s := by
  rcases F with F | _
  · exact location_candidate F m o ho s o1 o2 h
  all_goals
    simp [construct, ShiftFam.family, ShiftFam.given, ShiftFam.with, ShiftFam.locName, parametrize, simpleParam, simpleFam,
      asymLaplaceParam, skewNormalParam, skewStudentTParam, allNotNone, blank, Obj.setAll, Obj.set, Except.ok_bind',
      Except.pure_eq] at ho
    subst ho
    simp [applyCandidate, getFixedParams, splitStep, getParams, getParamsFrom, Function.update, Except.map, Except.ok_bind',
      ShiftFam.family, parametrize, kwCall, List.lookup, simpleParam, simpleFam, simpleUpdate, asymLaplaceParam,
      asymLaplaceUpdate, skewNormalParam, skewNormalUpdate, skewStudentTParam, skewStudentTUpdate, allNotNone, Obj.setAll,
      Obj.set, Except.pure_eq, List.zipIdx] at h
    subst h
    simp [law, lawAttrs, ShiftFam.family, ShiftFam.values, simpleFam, Obj.setAll, Obj.set, Function.update]

theorem shift_scale_candidate (F : ShiftFam) (s : ℝ) (o : Obj) (ho : construct F.family (F.with F.scaleName s) = .ok o) (m : ℝ)
    (o1 o2 : Obj) (h : applyCandidate F.family o.names (getFixedParams o).1 (getFixedParams o).2 [m] o1 = .ok o2) :
    law F.family o2 = F.values m s := by
  rcases F with F | _
  · exact scale_candidate F s o ho m o1 o2 h
  all_goals
    simp [construct, ShiftFam.family, ShiftFam.given, ShiftFam.with, ShiftFam.scaleName, parametrize, simpleParam, simpleFam,
      asymLaplaceParam, skewNormalParam, skewStudentTParam, allNotNone, blank, Obj.setAll, Obj.set, Except.ok_bind',
      Except.pure_eq] at ho
    subst ho
    simp [applyCandidate, getFixedParams, splitStep, getParams, getParamsFrom, Function.update, Except.map, Except.ok_bind',
      ShiftFam.family, parametrize, kwCall, List.lookup, simpleParam, simpleFam, simpleUpdate, asymLaplaceParam,
      asymLaplaceUpdate, skewNormalParam, skewNormalUpdate, skewStudentTParam, skewStudentTUpdate, allNotNone, Obj.setAll,
      Obj.set, Except.pure_eq, List.zipIdx] at h
    subst h
    simp [law, lawAttrs, ShiftFam.family, ShiftFam.values, simpleFam, Obj.setAll, Obj.set, Function.update]

/-- **C133**: maxent with the location given.  Let the runs completed before the first failure end at the positive scales
`ends`, in this order, and report their entropies.  The distribution returned keeps the location; if one of the runs gives the
interval the mass up to 1e-4, its scale is the largest of all those that do so; otherwise it is the one of the first run. -/
theorem maxent_shift_location (F : ShiftFam) (hF : F.Ok) (m : ℝ) (o : Obj)
    (ho : construct F.family (F.with F.locName m) = .ok o)
    (b : ℝ → Base) (hb : ∀ s, 0 < s → (b s).discrete = false ∧ (b s).law = ofPdf (F.pdf m s)) (l u p : ℝ) (hlu : l < u)
    (err : List ℝ → Option ℝ) (herr : ∀ s, 0 < s → err [s] = some |probBound (b s) l u p none|)
    (done : List Opt) (rest : List (Except Err Opt)) (hrest : ∀ r, rest.head? = some r → ∃ e, r = .error e)
    (ends : List ℝ) (hends : done.map (fun r => r.x) = ends.map fun v => [v])
    (hdone : ∀ r ∈ done, ∃ s, 0 < s ∧ r.x = [s] ∧ r.value = some ((-entropyOf (F.pdf m s) : ℝ) : EReal))
    (o1 o2 : Obj) (r : Opt)
    (h : optimizeMaxEnt F.family o.names (getFixedParams o).1 (getFixedParams o).2 err (done.map .ok ++ rest) o1 =
      .ok (r, o2)) :
    ∃ s ∈ ends, 0 < s ∧ law F.family o2 = F.values m s ∧
      ((∃ s' ∈ ends, |massOf (F.pdf m s') l u - p| < 1 / 10000) → |massOf (F.pdf m s) l u - p| < 1 / 10000 ∧
        ∀ s' ∈ ends, |massOf (F.pdf m s') l u - p| < 1 / 10000 → s' ≤ s) ∧
      ((∀ s' ∈ ends, 1 / 10000 ≤ |massOf (F.pdf m s') l u - p|) → ends.head? = some s) := by
  obtain ⟨h1, h2⟩ := maxent_leaves_selected _ _ _ _ _ _ _ _ _ h
  obtain ⟨s, hs, hx, i, hi, t1, t2⟩ := maxent_one b (F.pdf m) (fun s => 0 < s) hb l u p hlu err herr done rest hrest ends hends
    hdone r h1
  have hpos : ∀ s' ∈ ends, 0 < s' := by
    intro s' hs'
    have : [s'] ∈ done.map fun r => r.x := by rw [hends]; exact List.mem_map.2 ⟨s', hs', rfl⟩
    obtain ⟨r', hr', e⟩ := List.mem_map.1 this
    obtain ⟨w, hw, hxw, -⟩ := hdone r' hr'
    rw [e] at hxw
    simp only [List.cons.injEq, and_true] at hxw
    rw [hxw]; exact hw
  refine ⟨s, List.mem_of_getElem? hi, hs, shift_location_candidate F m o ho s o1 o2 (by rw [← hx]; exact h2), fun hp => ?_,
    fun hp => by rw [List.head?_eq_getElem?, ← t2 hp, hi]⟩
  obtain ⟨a, c, -⟩ := t1 hp
  refine ⟨a, fun s' hs' hlt => ?_⟩
  have := c s' hs' hlt
  simp only at this
  rw [ent_up hF m hs, ent_up hF m (hpos s' hs')] at this
  exact (Real.log_le_log_iff (hpos s' hs') hs).1 (by linarith)

/-- **C133**: hence, if the completed runs that pass the check give the interval exactly the mass and one of them ends at the
largest scale with the mass, that is the scale returned. -/
theorem maxent_shift_location_best (F : ShiftFam) (hF : F.Ok) (m : ℝ) (o : Obj)
    (ho : construct F.family (F.with F.locName m) = .ok o)
    (b : ℝ → Base) (hb : ∀ s, 0 < s → (b s).discrete = false ∧ (b s).law = ofPdf (F.pdf m s)) (l u p : ℝ) (hlu : l < u)
    (best : ℝ) (hmass : massOf (F.pdf m best) l u = p) (hbest : ∀ s, 0 < s → massOf (F.pdf m s) l u = p → s ≤ best)
    (err : List ℝ → Option ℝ) (herr : ∀ s, 0 < s → err [s] = some |probBound (b s) l u p none|)
    (done : List Opt) (rest : List (Except Err Opt)) (hrest : ∀ r, rest.head? = some r → ∃ e, r = .error e)
    (ends : List ℝ) (hends : done.map (fun r => r.x) = ends.map fun v => [v])
    (hdone : ∀ r ∈ done, ∃ s, 0 < s ∧ r.x = [s] ∧ r.value = some ((-entropyOf (F.pdf m s) : ℝ) : EReal))
    (hexact : ∀ s ∈ ends, |massOf (F.pdf m s) l u - p| < 1 / 10000 → massOf (F.pdf m s) l u = p) (hopt : best ∈ ends)
    (o1 o2 : Obj) (r : Opt)
    (h : optimizeMaxEnt F.family o.names (getFixedParams o).1 (getFixedParams o).2 err (done.map .ok ++ rest) o1 =
      .ok (r, o2)) :
    law F.family o2 = F.values m best := by
  obtain ⟨s, hse, hs0, hl, h1, -⟩ := maxent_shift_location F hF m o ho b hb l u p hlu err herr done rest hrest ends hends hdone
    o1 o2 r h
  have hok : |massOf (F.pdf m best) l u - p| < 1 / 10000 := by rw [hmass, sub_self, abs_zero]; norm_num
  obtain ⟨hlt, hmax⟩ := h1 ⟨best, hopt, hok⟩
  rw [hl, le_antisymm (hbest s hs0 (hexact s hse hlt)) (hmax best hopt hok)]

/-- **C133**: maxent with the scale given.  All entropies are the same, so the distribution returned is the one of the first
completed run that gives the interval the mass up to 1e-4, or of the first run if none does. -/
theorem maxent_shift_scale (F : ShiftFam) (hF : F.Ok) (s : ℝ) (hs : 0 < s) (o : Obj)
    (ho : construct F.family (F.with F.scaleName s) = .ok o)
    (b : ℝ → Base) (hb : ∀ m, (b m).discrete = false ∧ (b m).law = ofPdf (F.pdf m s)) (l u p : ℝ) (hlu : l < u)
    (err : List ℝ → Option ℝ) (herr : ∀ m, err [m] = some |probBound (b m) l u p none|)
    (done : List Opt) (rest : List (Except Err Opt)) (hrest : ∀ r, rest.head? = some r → ∃ e, r = .error e)
    (ends : List ℝ) (hends : done.map (fun r => r.x) = ends.map fun v => [v])
    (hdone : ∀ r ∈ done, ∃ m, r.x = [m] ∧ r.value = some ((-entropyOf (F.pdf m s) : ℝ) : EReal))
    (o1 o2 : Obj) (r : Opt)
    (h : optimizeMaxEnt F.family o.names (getFixedParams o).1 (getFixedParams o).2 err (done.map .ok ++ rest) o1 =
      .ok (r, o2)) :
    ∃ m i, ends[i]? = some m ∧ law F.family o2 = F.values m s ∧
      ((∃ m' ∈ ends, |massOf (F.pdf m' s) l u - p| < 1 / 10000) → |massOf (F.pdf m s) l u - p| < 1 / 10000 ∧
        ∀ j m', j < i → ends[j]? = some m' → 1 / 10000 ≤ |massOf (F.pdf m' s) l u - p|) ∧
      ((∀ m' ∈ ends, 1 / 10000 ≤ |massOf (F.pdf m' s) l u - p|) → i = 0) := by
  obtain ⟨h1, h2⟩ := maxent_leaves_selected _ _ _ _ _ _ _ _ _ h
  obtain ⟨m, -, hx, i, hi, t1, t2⟩ := maxent_one b (fun m => F.pdf m s) (fun _ => True) (fun m _ => hb m) l u p hlu err
    (fun m _ => herr m) done rest hrest ends hends (fun r hr => by
      obtain ⟨m, a, c⟩ := hdone r hr
      exact ⟨m, trivial, a, c⟩) r h1
  refine ⟨m, i, hi, shift_scale_candidate F s o ho m o1 o2 (by rw [← hx]; exact h2), fun hp => ?_, t2⟩
  obtain ⟨a, -, c⟩ := t1 hp
  refine ⟨a, fun j m' hj hm' => ?_⟩
  by_contra hc
  have := c j m' hj hm' (not_le.1 hc)
  simp only at this
  rw [ent_up hF m hs, ent_up hF m' hs] at this
  exact lt_irrefl _ this

/-! The hypotheses are met. -/

/-- the values below the location of `AsymmetricLaplace(kappa=2)` have the probability 4/5 -/
theorem asymmetric_below (κ : ℝ) (hk : 0 < κ) : (ShiftFam.asymmetricLaplace κ).below = κ ^ 2 / (1 + κ ^ 2) := by
  rw [below_up (F := .asymmetricLaplace κ) hk]
  change ∫ x in Set.Iic (0 : ℝ), asymLaplacePdf κ 0 1 x = _
  have e : Set.EqOn (fun x => asymLaplacePdf κ 0 1 x) (fun x => 1 / (κ + 1 / κ) * Real.exp (κ⁻¹ * x)) (Set.Iic (0 : ℝ)) := by
    intro x hx
    simp only [asymLaplacePdf]
    rcases (show x ≤ 0 from hx).lt_or_eq with h | rfl
    · simp only [sub_zero, one_mul, h, if_true]
      rw [div_eq_inv_mul x κ]
    · simp
  rw [setIntegral_congr_fun measurableSet_Iic e, integral_const_mul, integral_exp_mul_Iic (inv_pos.2 hk)]
  simp
  field_simp
  ring

/-- `maxent(Gumbel(mu=1), 0, 2, 0.9)`: one scale has the mass; `maxent(Gumbel(mu=0), 0, 2, p)` and
`maxent(AsymmetricLaplace(kappa=2, mu=0), 0, 2, 0.5)`: none has it, since the values above the location have the probability
1/5 -/
example : (∃ s, 0 < s ∧ massOf (ShiftFam.gumbel.pdf 1 s) 0 2 = 9 / 10) ∧
    (∀ s, 0 < s → massOf ((ShiftFam.asymmetricLaplace 2).pdf 0 s) 0 2 ≠ 1 / 2) ∧
    ∃ s, 0 < s ∧ massOf ((ShiftFam.asymmetricLaplace 2).pdf 0 s) 0 2 = 1 / 10 := by
  refine ⟨?_, ?_, ?_⟩
  · obtain ⟨s, hs, h⟩ := shift_location_inside .gumbel trivial 0 2 1 (9 / 10) (by norm_num) (by norm_num) (by norm_num)
      (by norm_num)
    exact ⟨s, hs, (h s hs).2 rfl⟩
  · refine (shift_location_end (.asymmetricLaplace 2) two_pos 0 2 (1 / 2) two_pos (by norm_num)).2.1 ?_
    rw [asymmetric_below 2 two_pos]; norm_num
  · obtain ⟨s, hs, h⟩ := (shift_location_end (.asymmetricLaplace 2) two_pos 0 2 (1 / 10) two_pos (by norm_num)).1
      (by rw [asymmetric_below 2 two_pos]; norm_num)
    exact ⟨s, hs, (h s hs).2 rfl⟩

/-- `maxent(Gumbel(mu=0), 1, 3, p)`: the runs end at two scales with the mass, the second is the largest one -/
example : ∃ (p s₁ s₂ : ℝ) (o : Obj) (err : List ℝ → Option ℝ) (done : List Opt), 0 < s₁ ∧ s₁ < s₂ ∧
    construct (.simple .gumbel) (ShiftFam.gumbel.with "mu" 0) = .ok o ∧ getFixedParams o = ([1], [0]) ∧
    massOf (ShiftFam.gumbel.pdf 0 s₂) 1 3 = p ∧ (∀ s, 0 < s → massOf (ShiftFam.gumbel.pdf 0 s) 1 3 = p → s ≤ s₂) ∧
    (∀ s, 0 < s → (shiftBase .gumbel trivial 0 s).discrete = false ∧
      (shiftBase .gumbel trivial 0 s).law = ofPdf (ShiftFam.gumbel.pdf 0 s)) ∧
    (∀ s, 0 < s → err [s] = some |probBound (shiftBase .gumbel trivial 0 s) 1 3 p none|) ∧
    done.map (fun r => r.x) = [s₁, s₂].map (fun v => [v]) ∧
    (∀ r ∈ done, ∃ s, 0 < s ∧ r.x = [s] ∧ r.value = some ((-entropyOf (ShiftFam.gumbel.pdf 0 s) : ℝ) : EReal)) ∧
    ∀ s ∈ [s₁, s₂], massOf (ShiftFam.gumbel.pdf 0 s) 1 3 = p := by
  obtain ⟨top, s₀, t0, -, -, -, -, -, hp⟩ := shift_location_outside .gumbel trivial 1 3 0 (by norm_num) (.inl one_pos)
  obtain ⟨s₂, b2, e2, hmax, hsm⟩ := hp (top / 2) (by linarith) (by linarith)
  obtain ⟨s₁, a, hlt, e1⟩ := hsm (by linarith)
  refine ⟨top / 2, s₁, s₂, _, fun x => match x with
    | [s] => some |probBound (shiftBase .gumbel trivial 0 s) 1 3 (top / 2) none|
    | _ => none, [⟨[s₁], some ((-entropyOf (ShiftFam.gumbel.pdf 0 s₁) : ℝ) : EReal)⟩,
      ⟨[s₂], some ((-entropyOf (ShiftFam.gumbel.pdf 0 s₂) : ℝ) : EReal)⟩], a, hlt, rfl, ?_, e2, hmax, fun s hs => ?_, fun s _ => rfl,
      rfl, ?_, ?_⟩
  · simp [getFixedParams, splitStep, ShiftFam.with, ShiftFam.given, parametrize, simpleParam, simpleFam, allNotNone, blank,
      Obj.setAll, Obj.set, Function.update, List.zipIdx]
  · unfold shiftBase
    rw [dif_pos hs]
    exact ⟨rfl, rfl⟩
  · intro r hr
    simp only [List.mem_cons, List.not_mem_nil, or_false] at hr
    rcases hr with rfl | rfl
    · exact ⟨s₁, a, rfl, rfl⟩
    · exact ⟨s₂, b2, rfl, rfl⟩
  · intro s hs
    simp only [List.mem_cons, List.not_mem_nil, or_false] at hs
    rcases hs with rfl | rfl
    · exact e1
    · exact e2

end Verif.Props
