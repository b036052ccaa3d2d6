import Verif.Lemmas.PeakGiven
import Verif.Props.LocScale
import Verif.Props.HalfScale

/-!
# C130: maxent with the location or the scale given

Normal, Laplace, Logistic, Cauchy and StudentT (with given degrees of freedom), by their documented densities, with one of the
two remaining parameters given by the user.
-/

namespace Verif.Props
open MeasureTheory Verif Verif.Spec Verif.Param Verif.Optim Verif.NumFit Verif.Modifier Verif.LocScale Verif.HalfScale

/-! ### Which scales give the mass -/

private theorem ent_eq {F : PeakFam} (hF : F.Ok) (m : ℝ) {s : ℝ} (hs : 0 < s) :
    entropyOf (F.pdf m s) = Real.log s + entropyOf (F.pdf 0 1) := by
  rw [fam_moved F m hs, entropy_moved (peak_fam F hF) m hs]

private theorem below {F : PeakFam} (hF : F.Ok) {l u m : ℝ} (h : l < u) (hm : m < l) :
    ∃ s₀ top, 0 < s₀ ∧ 0 < top ∧ top < 1 / 2 ∧ massOf (F.pdf m s₀) l u = top ∧
      (∀ s, 0 < s → s ≠ s₀ → massOf (F.pdf m s) l u < top) ∧
      ∀ p, 0 < p → p < top → ∃ s₁ s₂, 0 < s₁ ∧ s₁ < s₀ ∧ s₀ < s₂ ∧
        (∀ s, 0 < s → (massOf (F.pdf m s) l u = p ↔ s = s₁ ∨ s = s₂)) ∧ entropyOf (F.pdf m s₁) < entropyOf (F.pdf m s₂) := by
  have hg := peak_fam F hF
  have hlm := sub_pos.2 hm
  have hc : 1 < (u - m) / (l - m) := by rw [lt_div_iff₀ hlm]; linarith
  have e : ∀ s, 0 < s → massOf (F.pdf m s) l u = gap (F.pdf 0 1) ((u - m) / (l - m)) ((l - m) / s) / 2 := by
    intro s hs
    rw [fam_moved F m hs, mass_side hg hs hm h]
  obtain ⟨x₀, h0, hmax, htwo⟩ := gap_two hg (thin_fam F hF) hc
  have flip : ∀ x, 0 < x → (l - m) / ((l - m) / x) = x := fun x hx => div_div_cancel₀ hlm.ne'
  have inv : ∀ s x, 0 < s → 0 < x → ((l - m) / s = x ↔ s = (l - m) / x) := by
    intro s x hs hx
    rw [div_eq_iff hs.ne', eq_div_iff hx.ne', mul_comm x, eq_comm]
  refine ⟨(l - m) / x₀, gap (F.pdf 0 1) ((u - m) / (l - m)) x₀ / 2, by positivity, ?_, ?_, ?_, fun s hs hne => ?_,
    fun p hp ht => ?_⟩
  · have := gap_pos hg hc h0
    linarith
  · have h1 := around_lt_one hg ((u - m) / (l - m) * x₀)
    have h2 := around_mono hg 0 h0
    unfold gap
    simp only [around, sub_zero, add_zero, intervalIntegral.integral_same] at h2
    simp only [around] at h1 ⊢
    linarith
  · rw [e _ (by positivity), flip _ h0]
  · rw [e s hs]
    have := hmax ((l - m) / s) (by positivity) fun hx => hne ((inv s x₀ hs h0).1 hx)
    linarith
  · obtain ⟨x₁, x₂, hx₁, h1, h2, hsol⟩ := htwo (2 * p) (by linarith) (by linarith)
    have hx₂ := h0.trans h2
    have hlt : (l - m) / x₂ < (l - m) / x₁ := div_lt_div_of_pos_left hlm hx₁ (h1.trans h2)
    refine ⟨(l - m) / x₂, (l - m) / x₁, by positivity, div_lt_div_of_pos_left hlm h0 h2, div_lt_div_of_pos_left hlm hx₁ h1,
      fun s hs => ?_, ?_⟩
    · rw [e s hs, ← inv s x₂ hs hx₂, ← inv s x₁ hs hx₁, or_comm, ← hsol _ (by positivity)]
      constructor <;> intro h' <;> linarith
    · rw [ent_eq hF m (by positivity), ent_eq hF m (by positivity)]
      linarith [Real.log_lt_log (by positivity) hlt]

/-- **C130**: the location given outside the interval: there is a largest mass, below one half and reached by one scale only;
every smaller mass is that of exactly two scales, and the wider distribution has the larger entropy. -/
theorem location_outside (F : PeakFam) (hF : F.Ok) (l u m : ℝ) (h : l < u) (hm : m < l ∨ u < m) :
    ∃ s₀ top, 0 < s₀ ∧ 0 < top ∧ top < 1 / 2 ∧ massOf (F.pdf m s₀) l u = top ∧
      (∀ s, 0 < s → s ≠ s₀ → massOf (F.pdf m s) l u < top) ∧
      ∀ p, 0 < p → p < top → ∃ s₁ s₂, 0 < s₁ ∧ s₁ < s₀ ∧ s₀ < s₂ ∧
        (∀ s, 0 < s → (massOf (F.pdf m s) l u = p ↔ s = s₁ ∨ s = s₂)) ∧ entropyOf (F.pdf m s₁) < entropyOf (F.pdf m s₂) := by
  rcases hm with hm | hm
  · exact below hF h hm
  · have hg := peak_fam F hF
    have e : ∀ s, 0 < s → massOf (F.pdf (l + u - m) s) l u = massOf (F.pdf m s) l u := by
      intro s hs
      rw [fam_moved F _ hs, fam_moved F m hs, mass_mirror hg hs h.le]
    have e' : ∀ s, 0 < s → entropyOf (F.pdf (l + u - m) s) = entropyOf (F.pdf m s) := by
      intro s hs
      rw [ent_eq hF _ hs, ent_eq hF _ hs]
    obtain ⟨s₀, top, h0, h1, h2, h3, h4, h5⟩ := below hF h (show l + u - m < l by linarith)
    refine ⟨s₀, top, h0, h1, h2, by rw [← e s₀ h0, h3], fun s hs hne => by rw [← e s hs]; exact h4 s hs hne, fun p hp ht => ?_⟩
    obtain ⟨s₁, s₂, a, b, c, d, f⟩ := h5 p hp ht
    refine ⟨s₁, s₂, a, b, c, fun s hs => by rw [← e s hs]; exact d s hs, ?_⟩
    rw [← e' s₁ a, ← e' s₂ (h0.trans c)]
    exact f

private theorem at_left {F : PeakFam} (hF : F.Ok) {l u : ℝ} (h : l < u) {s : ℝ} (hs : 0 < s) :
    massOf (F.pdf l s) l u = around (F.pdf 0 1) 0 ((u - l) / s) / 2 := by
  have hg := peak_fam F hF
  rw [fam_moved F l hs, mass_moved hg l hs h.le, around_twice hg, around,
    show ((l + u) / 2 - l) / s - (u - l) / (2 * s) = 0 by field_simp; ring,
    show ((l + u) / 2 - l) / s + (u - l) / (2 * s) = (u - l) / s by field_simp; ring]
  ring

/-- **C130**: the location given at one end of the interval: a mass below one half is that of exactly one scale, a larger mass
of none. -/
theorem location_at_end (F : PeakFam) (hF : F.Ok) (l u m p : ℝ) (h : l < u) (hm : m = l ∨ m = u) (h0 : 0 < p) :
    (p < 1 / 2 → ∃ s, 0 < s ∧ ∀ s', 0 < s' → (massOf (F.pdf m s') l u = p ↔ s' = s)) ∧
    (1 / 2 ≤ p → ∀ s, 0 < s → massOf (F.pdf m s) l u ≠ p) := by
  have hg := peak_fam F hF
  have hul := sub_pos.2 h
  have e : ∀ s, 0 < s → massOf (F.pdf m s) l u = around (F.pdf 0 1) 0 ((u - l) / s) / 2 := by
    intro s hs
    rcases hm with rfl | rfl
    · exact at_left hF h hs
    · rw [← at_left hF h hs, fam_moved F _ hs, fam_moved F l hs, ← mass_mirror hg hs h.le]
      congr 2
      ring
  refine ⟨fun hp => ?_, fun hp s hs he => ?_⟩
  · obtain ⟨k, hk, ek⟩ := around_exists hg (p := 2 * p) (by linarith) (by linarith)
    refine ⟨(u - l) / k, by positivity, fun s' hs' => ?_⟩
    rw [e s' hs', div_eq_iff two_ne_zero, mul_comm p, ← ek, (around_mono hg 0).injective.eq_iff, div_eq_iff hs'.ne',
      eq_div_iff hk.ne', mul_comm k, eq_comm]
  · rw [e s hs] at he
    linarith [around_lt_one hg ((u - l) / s)]

private theorem side_half {F : PeakFam} {H : HalfFam} (hF : F.Ok) (hH : H.Ok) (hFH : F.pdf 0 1 = unfolded H) {m s l u : ℝ}
    (hs : 0 < s) (hm : m < l) (h : l < u) : massOf (F.pdf m s) l u = massOf (H.pdf s) (l - m) (u - m) / 2 := by
  have hlm := sub_pos.2 hm
  rw [fam_moved F m hs, mass_side (peak_fam F hF) hs hm h, half_folded H hH hs,
    mass_folded (unfolded_peak H hH) hs hlm.le (by linarith), hFH]
  unfold gap
  rw [show (u - m) / (l - m) * ((l - m) / s) = (u - m) / s by field_simp]

/-- **C130**: where the largest mass is reached, for a location below the interval. -/
theorem location_peak_scale (l u m : ℝ) (h : l < u) (hm : m < l) :
    (∀ s, 0 < s → s ≠ √(((u - m) ^ 2 - (l - m) ^ 2) / (2 * Real.log ((u - m) / (l - m)))) →
      massOf (normalPdf m s) l u <
        massOf (normalPdf m √(((u - m) ^ 2 - (l - m) ^ 2) / (2 * Real.log ((u - m) / (l - m))))) l u) ∧
    (∀ s, 0 < s → s ≠ (u - l) / Real.log ((u - m) / (l - m)) →
      massOf (laplacePdf m s) l u < massOf (laplacePdf m ((u - l) / Real.log ((u - m) / (l - m)))) l u) ∧
    (∀ s, 0 < s → s ≠ √((l - m) * (u - m)) →
      massOf (cauchyPdf m s) l u < massOf (cauchyPdf m √((l - m) * (u - m))) l u) := by
  have hlm := sub_pos.2 hm
  have hul := sub_pos.2 h
  have hum : 0 < u - m := by linarith
  have hlog : 0 < Real.log ((u - m) / (l - m)) := Real.log_pos (by rw [lt_div_iff₀ hlm]; linarith)
  have key := half_peak_scale (l - m) (u - m) hlm (by linarith)
  have s1 : 0 < √(((u - m) ^ 2 - (l - m) ^ 2) / (2 * Real.log ((u - m) / (l - m)))) :=
    Real.sqrt_pos.2 (div_pos (by nlinarith) (by positivity))
  have s2 : 0 < (u - l) / Real.log ((u - m) / (l - m)) := by positivity
  have s3 : 0 < √((l - m) * (u - m)) := Real.sqrt_pos.2 (by positivity)
  refine ⟨fun s hs hne => ?_, fun s hs hne => ?_, fun s hs hne => ?_⟩
  · have e := fun s (hs : 0 < s) => side_half (F := .normal) (H := .halfNormal) trivial trivial rfl (m := m) hs hm h
    simp only [PeakFam.pdf, HalfFam.pdf] at e
    rw [e s hs, e _ s1]
    linarith [key.2.1 s hs hne]
  · have e := fun s (hs : 0 < s) => side_half (F := .laplace) (H := .exponential) trivial trivial rfl (m := m) hs hm h
    simp only [PeakFam.pdf, HalfFam.pdf] at e
    rw [e s hs, e _ s2]
    have := key.1 s hs (by rw [show u - m - (l - m) = u - l by ring]; exact hne)
    rw [show u - m - (l - m) = u - l by ring] at this
    linarith
  · have e := fun s (hs : 0 < s) => side_half (F := .cauchy) (H := .halfCauchy) trivial trivial
      (funext fun x => cauchy_student x) (m := m) hs hm h
    simp only [PeakFam.pdf, HalfFam.pdf] at e
    rw [e s hs, e _ s3]
    linarith [key.2.2 s hs hne]

/-! ### maxent -/

theorem location_candidate (F : PeakFam) (m : ℝ) (o : Obj) (ho : construct F.family (F.with F.locName m) = .ok o) (s : ℝ)
    (o1 o2 : Obj) (h : applyCandidate F.family o.names (getFixedParams o).1 (getFixedParams o).2 [s] o1 = .ok o2) :
    law F.family o2 = F.values m s := by
  cases F <;>
    simp [construct, PeakFam.family, PeakFam.given, PeakFam.with, PeakFam.locName, parametrize, normalParam, studentTParam,
      simpleParam, simpleFam, allNotNone, blank, Obj.setAll, Obj.set, Except.ok_bind', Except.pure_eq] at ho <;>
    subst ho <;>
    simp [applyCandidate, getFixedParams, splitStep, getParams, getParamsFrom, Function.update, Except.map, Except.ok_bind',
      PeakFam.family, parametrize, kwCall, List.lookup, normalParam, studentTParam, simpleParam, simpleFam, simpleUpdate,
      allNotNone, Obj.setAll, Obj.set, normalUpdate, studentTUpdate, Except.pure_eq, List.zipIdx] at h <;>
    subst h <;>
    simp [law, lawAttrs, PeakFam.family, PeakFam.values, Obj.setAll, Obj.set, Function.update]

theorem scale_candidate (F : PeakFam) (s : ℝ) (o : Obj) (ho : construct F.family (F.with F.scaleName s) = .ok o) (m : ℝ)
    (o1 o2 : Obj) (h : applyCandidate F.family o.names (getFixedParams o).1 (getFixedParams o).2 [m] o1 = .ok o2) :
    law F.family o2 = F.values m s := by
  cases F <;>
    simp [construct, PeakFam.family, PeakFam.given, PeakFam.with, PeakFam.scaleName, parametrize, normalParam, studentTParam,
      simpleParam, simpleFam, allNotNone, blank, Obj.setAll, Obj.set, Except.ok_bind', Except.pure_eq] at ho <;>
    subst ho <;>
    simp [applyCandidate, getFixedParams, splitStep, getParams, getParamsFrom, Function.update, Except.map, Except.ok_bind',
      PeakFam.family, parametrize, kwCall, List.lookup, normalParam, studentTParam, simpleParam, simpleFam, simpleUpdate,
      allNotNone, Obj.setAll, Obj.set, normalUpdate, studentTUpdate, Except.pure_eq, List.zipIdx] at h <;>
    subst h <;>
    simp [law, lawAttrs, PeakFam.family, PeakFam.values, Obj.setAll, Obj.set, Function.update]

private theorem pick_one {F : Family} {names : List String} {idx : List ℕ} {fixed : List ℝ} {err : List ℝ → Option ℝ}
    {runs : List (Except Err Opt)} {o1 o2 : Obj} {r : Opt}
    (h : optimizeMaxEnt F names idx fixed err runs o1 = .ok (r, o2)) :
    selectOpt err runs = .ok r ∧ applyCandidate F names idx fixed r.x o1 = .ok o2 :=
  maxent_leaves_selected _ _ _ _ _ _ _ _ _ h

/-- **C130**: maxent with the location given.  Let the runs completed before the first failure end at the positive scales
`ends`, in this order, and report their entropies.  The distribution returned keeps the location; if one of the runs gives the
interval the mass up to 1e-4, its scale is the largest of all those that do so; otherwise it is the one of the first run. -/
theorem maxent_location_given (F : PeakFam) (hF : F.Ok) (m : ℝ) (o : Obj)
    (ho : construct F.family (F.with F.locName m) = .ok o)
    (b : ℝ → Base) (hb : ∀ s, 0 < s → (b s).discrete = false ∧ (b s).law = ofPdf (F.pdf m s)) (l u p : ℝ) (hlu : l < u)
    (err : List ℝ → Option ℝ) (herr : ∀ s, 0 < s → err [s] = some |probBound (b s) l u p none|)
    (done : List Opt) (rest : List (Except Err Opt)) (hrest : ∀ r, rest.head? = some r → ∃ e, r = .error e)
    (ends : List ℝ) (hends : done.map (fun r => r.x) = ends.map fun v => [v])
    (hdone : ∀ r ∈ done, ∃ s, 0 < s ∧ r.x = [s] ∧ r.value = some ((-entropyOf (F.pdf m s) : ℝ) : EReal))
    (o1 o2 : Obj) (r : Opt)
    (h : optimizeMaxEnt F.family o.names (getFixedParams o).1 (getFixedParams o).2 err (done.map .ok ++ rest) o1 =
      .ok (r, o2)) :
    ∃ s ∈ ends, 0 < s ∧ law F.family o2 = F.values m s ∧
      ((∃ s' ∈ ends, |massOf (F.pdf m s') l u - p| < 1 / 10000) → |massOf (F.pdf m s) l u - p| < 1 / 10000 ∧
        ∀ s' ∈ ends, |massOf (F.pdf m s') l u - p| < 1 / 10000 → s' ≤ s) ∧
      ((∀ s' ∈ ends, 1 / 10000 ≤ |massOf (F.pdf m s') l u - p|) → ends.head? = some s) := by
  obtain ⟨h1, h2⟩ := pick_one h
  obtain ⟨s, hs, hx, i, hi, t1, t2⟩ := maxent_one b (F.pdf m) (fun s => 0 < s) hb l u p hlu err herr done rest hrest ends hends
    hdone r h1
  have hpos : ∀ s' ∈ ends, 0 < s' := by
    intro s' hs'
    have : [s'] ∈ done.map fun r => r.x := by rw [hends]; exact List.mem_map.2 ⟨s', hs', rfl⟩
    obtain ⟨r', hr', e⟩ := List.mem_map.1 this
    obtain ⟨w, hw, hxw, -⟩ := hdone r' hr'
    rw [e] at hxw
    simp only [List.cons.injEq, and_true] at hxw
    rw [hxw]; exact hw
  refine ⟨s, List.mem_of_getElem? hi, hs, location_candidate F m o ho s o1 o2 (by rw [← hx]; exact h2), fun hp => ?_,
    fun hp => by rw [List.head?_eq_getElem?, ← t2 hp, hi]⟩
  obtain ⟨a, c, -⟩ := t1 hp
  refine ⟨a, fun s' hs' hlt => ?_⟩
  have := c s' hs' hlt
  simp only at this
  rw [ent_eq hF m hs, ent_eq hF m (hpos s' hs')] at this
  exact (Real.log_le_log_iff (hpos s' hs') hs).1 (by linarith)

/-- **C130**: maxent with the location given outside the interval and a mass below the largest one.  If the completed runs that
pass the check give the interval exactly the mass and there is one, the scale is one of the two of `location_outside`, and it is
the wider one (the answer) exactly if some completed run ended there. -/
theorem maxent_location_outside (F : PeakFam) (hF : F.Ok) (m : ℝ) (o : Obj)
    (ho : construct F.family (F.with F.locName m) = .ok o)
    (b : ℝ → Base) (hb : ∀ s, 0 < s → (b s).discrete = false ∧ (b s).law = ofPdf (F.pdf m s)) (l u p : ℝ) (hlu : l < u)
    (s₁ s₂ : ℝ) (hs₁ : 0 < s₁) (hs : s₁ < s₂) (hsol : ∀ s, 0 < s → (massOf (F.pdf m s) l u = p ↔ s = s₁ ∨ s = s₂))
    (err : List ℝ → Option ℝ) (herr : ∀ s, 0 < s → err [s] = some |probBound (b s) l u p none|)
    (done : List Opt) (rest : List (Except Err Opt)) (hrest : ∀ r, rest.head? = some r → ∃ e, r = .error e)
    (ends : List ℝ) (hends : done.map (fun r => r.x) = ends.map fun v => [v])
    (hdone : ∀ r ∈ done, ∃ s, 0 < s ∧ r.x = [s] ∧ r.value = some ((-entropyOf (F.pdf m s) : ℝ) : EReal))
    (hexact : ∀ s ∈ ends, |massOf (F.pdf m s) l u - p| < 1 / 10000 → massOf (F.pdf m s) l u = p)
    (hsome : ∃ s ∈ ends, |massOf (F.pdf m s) l u - p| < 1 / 10000)
    (o1 o2 : Obj) (r : Opt)
    (h : optimizeMaxEnt F.family o.names (getFixedParams o).1 (getFixedParams o).2 err (done.map .ok ++ rest) o1 =
      .ok (r, o2)) :
    ∃ s, law F.family o2 = F.values m s ∧ (s = s₁ ∨ s = s₂) ∧ (s = s₂ ↔ s₂ ∈ ends) := by
  obtain ⟨s, hse, hs0, hl, h1, -⟩ := maxent_location_given F hF m o ho b hb l u p hlu err herr done rest hrest ends hends hdone
    o1 o2 r h
  obtain ⟨hlt, hmax⟩ := h1 hsome
  have hm := (hsol s hs0).1 (hexact s hse hlt)
  refine ⟨s, hl, hm, fun e => e ▸ hse, fun h2 => ?_⟩
  have m2 := (hsol s₂ (hs₁.trans hs)).2 (.inr rfl)
  have := hmax s₂ h2 (by rw [m2, sub_self, abs_zero]; norm_num)
  rcases hm with e | e
  · linarith
  · exact e

/-- **C130**: maxent with the scale given.  All entropies are the same, so the distribution returned is the one of the first
completed run that gives the interval the mass up to 1e-4, or of the first run if none does. -/
theorem maxent_scale_given (F : PeakFam) (hF : F.Ok) (s : ℝ) (hs : 0 < s) (o : Obj)
    (ho : construct F.family (F.with F.scaleName s) = .ok o)
    (b : ℝ → Base) (hb : ∀ m, (b m).discrete = false ∧ (b m).law = ofPdf (F.pdf m s)) (l u p : ℝ) (hlu : l < u)
    (err : List ℝ → Option ℝ) (herr : ∀ m, err [m] = some |probBound (b m) l u p none|)
    (done : List Opt) (rest : List (Except Err Opt)) (hrest : ∀ r, rest.head? = some r → ∃ e, r = .error e)
    (ends : List ℝ) (hends : done.map (fun r => r.x) = ends.map fun v => [v])
    (hdone : ∀ r ∈ done, ∃ m, r.x = [m] ∧ r.value = some ((-entropyOf (F.pdf m s) : ℝ) : EReal))
    (o1 o2 : Obj) (r : Opt)
    (h : optimizeMaxEnt F.family o.names (getFixedParams o).1 (getFixedParams o).2 err (done.map .ok ++ rest) o1 =
      .ok (r, o2)) :
    ∃ m i, ends[i]? = some m ∧ law F.family o2 = F.values m s ∧
      ((∃ m' ∈ ends, |massOf (F.pdf m' s) l u - p| < 1 / 10000) → |massOf (F.pdf m s) l u - p| < 1 / 10000 ∧
        ∀ j m', j < i → ends[j]? = some m' → 1 / 10000 ≤ |massOf (F.pdf m' s) l u - p|) ∧
      ((∀ m' ∈ ends, 1 / 10000 ≤ |massOf (F.pdf m' s) l u - p|) → i = 0) := by
  obtain ⟨h1, h2⟩ := pick_one h
  obtain ⟨m, -, hx, i, hi, t1, t2⟩ := maxent_one b (fun m => F.pdf m s) (fun _ => True) (fun m _ => hb m) l u p hlu err
    (fun m _ => herr m) done rest hrest ends hends (fun r hr => by
      obtain ⟨m, a, c⟩ := hdone r hr
      exact ⟨m, trivial, a, c⟩) r h1
  refine ⟨m, i, hi, scale_candidate F s o ho m o1 o2 (by rw [← hx]; exact h2), fun hp => ?_, t2⟩
  obtain ⟨a, -, c⟩ := t1 hp
  refine ⟨a, fun j m' hj hm' => ?_⟩
  by_contra hc
  have := c j m' hj hm' (not_le.1 hc)
  simp only at this
  rw [ent_eq hF m hs, ent_eq hF m' hs] at this
  exact lt_irrefl _ this

/-- **C130**: with the scale given and a mass below the largest one, the answer is not determined by the request: of the two
mirror images of `fixed_scale_two` maxent returns the one at which the first completed run ended. -/
theorem scale_order_decides (F : PeakFam) (hF : F.Ok) (s : ℝ) (hs : 0 < s) (o : Obj)
    (ho : construct F.family (F.with F.scaleName s) = .ok o)
    (b : ℝ → Base) (hb : ∀ m, (b m).discrete = false ∧ (b m).law = ofPdf (F.pdf m s)) (l u p : ℝ) (hlu : l < u) (h0 : 0 < p)
    (hp : p < massOf (F.pdf ((l + u) / 2) s) l u)
    (err : List ℝ → Option ℝ) (herr : ∀ m, err [m] = some |probBound (b m) l u p none|) :
    ∃ d, 0 < d ∧ (∀ m, massOf (F.pdf m s) l u = p ↔ m = (l + u) / 2 - d ∨ m = (l + u) / 2 + d) ∧
      ∀ m m', massOf (F.pdf m s) l u = p → massOf (F.pdf m' s) l u = p → ∃ r o2,
        optimizeMaxEnt F.family o.names (getFixedParams o).1 (getFixedParams o).2 err
          [.ok ⟨[m], some ((-entropyOf (F.pdf m s) : ℝ) : EReal)⟩, .ok ⟨[m'], some ((-entropyOf (F.pdf m' s) : ℝ) : EReal)⟩] o =
            .ok (r, o2) ∧ law F.family o2 = F.values m s := by
  obtain ⟨d, hd, hsol⟩ := (fixed_scale_two F hF l u p s hlu h0 hs).2.2.1 hp
  refine ⟨d, hd, hsol, fun m m' hm hm' => ?_⟩
  have hap : ∃ o2, applyCandidate F.family o.names (getFixedParams o).1 (getFixedParams o).2 [m] o = .ok o2 := by
    cases F <;>
      simp [construct, PeakFam.family, PeakFam.given, PeakFam.with, PeakFam.scaleName, parametrize, normalParam, studentTParam,
        simpleParam, simpleFam, allNotNone, blank, Obj.setAll, Obj.set, Except.ok_bind', Except.pure_eq] at ho <;>
      subst ho <;>
      simp [applyCandidate, getFixedParams, splitStep, getParams, getParamsFrom, Function.update, Except.map, Except.ok_bind',
        PeakFam.family, parametrize, kwCall, List.lookup, normalParam, studentTParam, simpleParam, simpleFam, simpleUpdate,
        allNotNone, Obj.setAll, Obj.set, normalUpdate, studentTUpdate, Except.pure_eq, List.zipIdx]
  obtain ⟨o2, ho2⟩ := hap
  set r : Opt := ⟨[m], some ((-entropyOf (F.pdf m s) : ℝ) : EReal)⟩ with hr
  set r' : Opt := ⟨[m'], some ((-entropyOf (F.pdf m' s) : ℝ) : EReal)⟩ with hr'
  have hf : ∀ x, massOf (F.pdf x s) l u = p →
      Feasible err ⟨[x], some ((-entropyOf (F.pdf x s) : ℝ) : EReal)⟩ ((-entropyOf (F.pdf x s) : ℝ) : EReal) := by
    intro x hx
    refine ⟨⟨_, herr x, ?_⟩, rfl⟩
    rw [constraint_is_mass _ _ _ _ hlu.le (by simp [(hb x).1]), (hb x).2]
    change |massOf _ l u - _| < _
    rw [hx, sub_self, abs_zero]; norm_num
  obtain ⟨i, q, v, e1, e2, e3, -, e5⟩ := maxent_selects err [r, r'] [] (by simp) r (by simp) _ (hf m hm) (EReal.coe_ne_top _)
  have hent : entropyOf (F.pdf m' s) = entropyOf (F.pdf m s) := by rw [ent_eq hF m hs, ent_eq hF m' hs]
  have hq : q = r := by
    match i, e2, e5 with
    | 0, e2, _ => simpa [eq_comm] using e2
    | 1, e2, e5 =>
      have hq' : q = r' := by simpa [eq_comm] using e2
      have := e5 0 (by norm_num) r rfl _ (hf m hm)
      have hv := e3.2
      rw [hq', hr'] at hv
      simp only [Option.some.injEq] at hv
      rw [← hv, hent] at this
      exact absurd this (lt_irrefl _)
    | i + 2, e2, _ => simp at e2
  rw [hq] at e1
  refine ⟨r, o2, ?_, scale_candidate F s o ho m o o2 ho2⟩
  unfold optimizeMaxEnt
  have e1' : selectOpt err [.ok r, .ok r'] = .ok r := by simpa using e1
  rw [e1']
  simp only [Except.ok_bind']
  rw [show r.x = [m] from rfl, ho2]
  rfl

/-! The hypotheses are met. -/

/-- `maxent(Normal(mu=0), 1, 3, p)` with runs that end at the narrower and at the wider solution -/
example : ∃ (p s₁ s₂ : ℝ) (o : Obj) (err : List ℝ → Option ℝ) (done : List Opt), 0 < s₁ ∧ s₁ < s₂ ∧
    construct .normal (PeakFam.normal.with "mu" 0) = .ok o ∧ o.names = ["mu", "sigma"] ∧
    (∀ s, 0 < s → (massOf (normalPdf 0 s) 1 3 = p ↔ s = s₁ ∨ s = s₂)) ∧
    (∀ s, 0 < s → (peakBase .normal trivial 0 s).discrete = false ∧ (peakBase .normal trivial 0 s).law = ofPdf (normalPdf 0 s)) ∧
    (∀ s, 0 < s → err [s] = some |probBound (peakBase .normal trivial 0 s) 1 3 p none|) ∧
    done.map (fun r => r.x) = [s₁, s₂].map (fun v => [v]) ∧
    (∀ r ∈ done, ∃ s, 0 < s ∧ r.x = [s] ∧ r.value = some ((-entropyOf (normalPdf 0 s) : ℝ) : EReal)) ∧
    ∀ s ∈ [s₁, s₂], massOf (normalPdf 0 s) 1 3 = p := by
  obtain ⟨s₀, top, h0, t0, -, -, -, hp⟩ := location_outside .normal trivial 1 3 0 (by norm_num) (.inl one_pos)
  obtain ⟨s₁, s₂, a, b, c, d, -⟩ := hp (top / 2) (by linarith) (by linarith)
  have b2 : 0 < s₂ := by linarith
  refine ⟨top / 2, s₁, s₂, _, fun x => match x with
    | [s] => some |probBound (peakBase .normal trivial 0 s) 1 3 (top / 2) none|
    | _ => none, [⟨[s₁], some ((-entropyOf (normalPdf 0 s₁) : ℝ) : EReal)⟩,
      ⟨[s₂], some ((-entropyOf (normalPdf 0 s₂) : ℝ) : EReal)⟩], a, b.trans c, rfl, rfl, d, fun s hs => ?_, fun s _ => rfl, rfl,
      ?_, ?_⟩
  · unfold peakBase
    rw [dif_pos hs]
    exact ⟨rfl, rfl⟩
  · intro r hr
    simp only [List.mem_cons, List.not_mem_nil, or_false] at hr
    rcases hr with rfl | rfl
    · exact ⟨s₁, a, rfl, rfl⟩
    · exact ⟨s₂, b2, rfl, rfl⟩
  · intro s hs
    simp only [List.mem_cons, List.not_mem_nil, or_false] at hs
    rcases hs with rfl | rfl
    · exact (d _ a).2 (.inl rfl)
    · exact (d _ b2).2 (.inr rfl)

/-- `maxent(Normal(sigma=1), -1, 1, p)` with a mass below the largest: the order of the runs decides -/
example : ∃ (p : ℝ) (o : Obj), construct .normal (PeakFam.normal.with "sigma" 1) = .ok o ∧ o.names = ["mu", "sigma"] ∧ 0 < p ∧
    p < massOf (normalPdf ((-1 + 1) / 2) 1) (-1) 1 ∧
    ∀ m, (peakBase .normal trivial m 1).discrete = false ∧ (peakBase .normal trivial m 1).law = ofPdf (normalPdf m 1) := by
  have hpos : 0 < massOf (normalPdf ((-1 + 1) / 2) 1) (-1) 1 := by
    have e := fam_moved .normal ((-1 + 1) / 2) one_pos
    simp only [PeakFam.pdf] at e
    rw [e, mass_moved peak_normal _ one_pos (by norm_num)]
    have := around_mono peak_normal (((-1 : ℝ) + 1) / 2) (show (0 : ℝ) < (1 - -1) / (2 * 1) by norm_num)
    simpa [around] using this
  refine ⟨_, _, rfl, rfl, half_pos hpos, half_lt_self hpos, fun m => ?_⟩
  unfold peakBase
  rw [dif_pos one_pos]
  exact ⟨rfl, rfl⟩

end Verif.Props
