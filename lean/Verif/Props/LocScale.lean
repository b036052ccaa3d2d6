import Verif.Lemmas.LocScale
import Verif.Props.Select
import Verif.Props.NumFit

/-!
# C116: the answers for families with a location and a scale

Normal, Laplace, Logistic, Cauchy and StudentT (with given degrees of freedom), by their documented densities.
-/

namespace Verif.Props
open MeasureTheory Verif Verif.Spec Verif.Param Verif.Optim Verif.NumFit Verif.Modifier Verif.LocScale

/-! ### What the optimum is -/

private theorem mass_eq {F : PeakFam} (hF : F.Ok) (m : ℝ) {s : ℝ} (hs : 0 < s) {l u : ℝ} (h : l ≤ u) :
    massOf (F.pdf m s) l u = around (F.pdf 0 1) (((l + u) / 2 - m) / s) ((u - l) / (2 * s)) := by
  rw [fam_moved F m hs, mass_moved (peak_fam F hF) m hs h]

private theorem entropy_eq {F : PeakFam} (hF : F.Ok) (m : ℝ) {s : ℝ} (hs : 0 < s) :
    entropyOf (F.pdf m s) = Real.log s + entropyOf (F.pdf 0 1) := by
  rw [fam_moved F m hs, entropy_moved (peak_fam F hF) m hs]

private theorem mass_centre {F : PeakFam} (hF : F.Ok) {s : ℝ} (hs : 0 < s) {l u : ℝ} (h : l ≤ u) :
    massOf (F.pdf ((l + u) / 2) s) l u = around (F.pdf 0 1) 0 ((u - l) / (2 * s)) := by
  rw [mass_eq hF _ hs h, sub_self, zero_div]

private theorem mass_le_centre {F : PeakFam} (hF : F.Ok) (m : ℝ) {s : ℝ} (hs : 0 < s) {l u : ℝ} (h : l < u) :
    massOf (F.pdf m s) l u ≤ massOf (F.pdf ((l + u) / 2) s) l u := by
  rw [mass_eq hF m hs h.le, mass_centre hF hs h.le]
  exact around_le (peak_fam F hF) _ (by have := sub_pos.2 h; positivity)

private theorem mass_centre_lt {F : PeakFam} (hF : F.Ok) {s s' : ℝ} (hs : 0 < s) (h1 : s < s') {l u : ℝ} (h : l < u) :
    massOf (F.pdf ((l + u) / 2) s') l u < massOf (F.pdf ((l + u) / 2) s) l u := by
  rw [mass_centre hF hs h.le, mass_centre hF (hs.trans h1) h.le]
  refine around_mono (peak_fam F hF) 0 ?_
  have := sub_pos.2 h
  exact div_lt_div_of_pos_left this (by positivity) (by linarith)

/-- **C116**: for every interval and every mass below one there is exactly one distribution of the family with the largest
entropy among those that give the interval that mass; it is centred on the interval. -/
theorem centred_best (F : PeakFam) (hF : F.Ok) (l u p : ℝ) (h : l < u) (h0 : 0 < p) (h1 : p < 1) :
    ∃ s, 0 < s ∧ massOf (F.pdf ((l + u) / 2) s) l u = p ∧
      ∀ m' s', 0 < s' → massOf (F.pdf m' s') l u = p →
        entropyOf (F.pdf m' s') ≤ entropyOf (F.pdf ((l + u) / 2) s) ∧
        (entropyOf (F.pdf m' s') = entropyOf (F.pdf ((l + u) / 2) s) → m' = (l + u) / 2 ∧ s' = s) := by
  obtain ⟨k, k0, hk⟩ := around_exists (peak_fam F hF) h0 h1
  have hul := sub_pos.2 h
  have hs : 0 < (u - l) / (2 * k) := by positivity
  have hm : massOf (F.pdf ((l + u) / 2) ((u - l) / (2 * k))) l u = p := by
    rw [mass_centre hF hs h.le, ← hk]
    congr 1
    field_simp
  refine ⟨_, hs, hm, fun m' s' hs' hm' => ?_⟩
  have hle : s' ≤ (u - l) / (2 * k) := by
    by_contra hc
    have a := mass_centre_lt hF hs (not_le.1 hc) h
    have b := mass_le_centre hF m' hs' h
    rw [hm] at a; rw [hm'] at b
    linarith
  rw [entropy_eq hF _ hs', entropy_eq hF _ hs]
  refine ⟨by linarith [Real.log_le_log hs' hle], fun he => ?_⟩
  have hse : s' = (u - l) / (2 * k) := Real.log_injOn_pos hs' hs (by linarith)
  refine ⟨?_, hse⟩
  by_contra hne
  have hlt : massOf (F.pdf m' s') l u < massOf (F.pdf ((l + u) / 2) s') l u := by
    rw [mass_eq hF m' hs' h.le, mass_centre hF hs' h.le]
    refine around_lt (peak_fam F hF) (by positivity) ?_
    rw [Ne, div_eq_zero_iff, not_or]
    exact ⟨sub_ne_zero.2 (Ne.symm hne), hs'.ne'⟩
  rw [hm', hse, hm] at hlt
  exact lt_irrefl _ hlt

/-- **C116**: with a given scale there are exactly two answers, at the same distance on both sides of the centre, or one (the
centre), or none, and all have the same entropy. -/
theorem fixed_scale_two (F : PeakFam) (hF : F.Ok) (l u p s : ℝ) (h : l < u) (h0 : 0 < p) (hs : 0 < s) :
    (massOf (F.pdf ((l + u) / 2) s) l u < p → ∀ m, massOf (F.pdf m s) l u ≠ p) ∧
    (massOf (F.pdf ((l + u) / 2) s) l u = p → ∀ m, massOf (F.pdf m s) l u = p ↔ m = (l + u) / 2) ∧
    (p < massOf (F.pdf ((l + u) / 2) s) l u → ∃ d, 0 < d ∧ ∀ m, massOf (F.pdf m s) l u = p ↔
      (m = (l + u) / 2 - d ∨ m = (l + u) / 2 + d)) ∧
    ∀ m m', entropyOf (F.pdf m s) = entropyOf (F.pdf m' s) := by
  have hg := peak_fam F hF
  have hw : 0 < (u - l) / (2 * s) := by have := sub_pos.2 h; positivity
  refine ⟨fun hp m hm => ?_, fun hp m => ⟨fun hm => ?_, fun hm => by rw [hm, hp]⟩, fun hp => ?_, fun m m' => ?_⟩
  · have := mass_le_centre hF m hs h
    linarith
  · by_contra hne
    have hlt : massOf (F.pdf m s) l u < massOf (F.pdf ((l + u) / 2) s) l u := by
      rw [mass_eq hF m hs h.le, mass_centre hF hs h.le]
      refine around_lt hg hw ?_
      rw [Ne, div_eq_zero_iff, not_or]
      exact ⟨sub_ne_zero.2 (Ne.symm hne), hs.ne'⟩
    linarith
  · rw [mass_centre hF hs h.le] at hp
    obtain ⟨t1, ht1, ht1p⟩ := (((around_far hg ((u - l) / (2 * s))).eventually (gt_mem_nhds h0)).and
      (Filter.eventually_gt_atTop 0)).exists
    obtain ⟨t, ht, e⟩ := intermediate_value_Icc' (le_of_lt ht1p) (around_shift_cont hg ((u - l) / (2 * s))).continuousOn
      ⟨ht1.le, hp.le⟩
    have t0 : 0 < t := by
      rcases ht.1.lt_or_eq with h' | h'
      · exact h'
      · subst h'; simp only at e; linarith
    refine ⟨t * s, by positivity, fun m => ?_⟩
    rw [mass_eq hF m hs h.le]
    have habs : ∀ a, around (F.pdf 0 1) a ((u - l) / (2 * s)) = p ↔ |a| = t := by
      intro a
      have ea : around (F.pdf 0 1) a ((u - l) / (2 * s)) = around (F.pdf 0 1) |a| ((u - l) / (2 * s)) := by
        rcases abs_choice a with h' | h' <;> rw [h']
        rw [around_neg hg]
      rw [ea]
      constructor
      · intro h'
        rcases lt_trichotomy |a| t with hc | hc | hc
        · have := around_anti hg hw (abs_nonneg a) hc
          simp only at e; linarith
        · exact hc
        · have := around_anti hg hw t0.le hc
          simp only at e; linarith
      · intro h'; rw [h']; exact e
    rw [habs, abs_div, abs_of_pos hs, div_eq_iff hs.ne', abs_eq (by positivity)]
    constructor <;> rintro (h' | h')
    · left; linarith
    · right; linarith
    · left; linarith
    · right; linarith
  · rw [entropy_eq hF m hs, entropy_eq hF m' hs]

/-- **C116**: with a given location inside the interval there is exactly one answer. -/
theorem fixed_location_one (F : PeakFam) (hF : F.Ok) (l u p m : ℝ) (hl : l < m) (hu : m < u) (h0 : 0 < p) (h1 : p < 1) :
    ∃ s, 0 < s ∧ massOf (F.pdf m s) l u = p ∧ ∀ s', 0 < s' → massOf (F.pdf m s') l u = p → s' = s := by
  have hg := peak_fam F hF
  have e : ∀ s, 0 < s → massOf (F.pdf m s) l u = ∫ x in (-(m - l) * (1 / s))..((u - m) * (1 / s)), F.pdf 0 1 x := by
    intro s hs
    rw [mass_eq hF m hs (by linarith), around]
    congr 1 <;> field_simp <;> ring
  obtain ⟨k, k0, hk⟩ := span_exists hg (sub_pos.2 hl) (sub_pos.2 hu) h0 h1
  refine ⟨1 / k, by positivity, by rw [e _ (by positivity), one_div_one_div, hk], fun s' hs' hm => ?_⟩
  rw [e s' hs'] at hm
  rcases lt_trichotomy (1 / s') k with hc | hc | hc
  · have := span_mono hg (sub_pos.2 hl).le (sub_pos.2 hu).le (by linarith) hc
    linarith
  · rw [← hc, one_div_one_div]
  · have := span_mono hg (sub_pos.2 hl).le (sub_pos.2 hu).le (by linarith) hc
    linarith

/-- **C116**: three quartiles are those of a distribution of the family exactly if the median is halfway; the distribution is
unique and the median is its location. -/
theorem quartiles_iff (F : PeakFam) (hF : F.Ok) (q1 q2 q3 : ℝ) (h : q1 < q2) :
    ((∃ m s, 0 < s ∧ (ofPdf (F.pdf m s)).real (Set.Iic q1) = 1 / 4 ∧ (ofPdf (F.pdf m s)).real (Set.Iic q2) = 1 / 2 ∧
      (ofPdf (F.pdf m s)).real (Set.Iic q3) = 3 / 4) ↔ q2 - q1 = q3 - q2) ∧
    ∃ z, 0 < z ∧ ∀ m s, 0 < s → (ofPdf (F.pdf m s)).real (Set.Iic q1) = 1 / 4 →
      (ofPdf (F.pdf m s)).real (Set.Iic q2) = 1 / 2 → m = q2 ∧ s = (q2 - q1) / z := by
  have hg := peak_fam F hF
  have e : ∀ m s, 0 < s → ∀ x, (ofPdf (F.pdf m s)).real (Set.Iic x) = upTo (F.pdf 0 1) ((x - m) / s) := by
    intro m s hs x
    rw [fam_moved F m hs, cdf_moved hg m hs]
  obtain ⟨z, hz⟩ := upTo_exists hg (p := 3 / 4) (by norm_num) (by norm_num)
  have z0 : 0 < z := by
    rw [← (upTo_mono hg).lt_iff_lt, hz, upTo_zero hg]; norm_num
  have nz : upTo (F.pdf 0 1) (-z) = 1 / 4 := by rw [upTo_neg hg, hz]; norm_num
  have key : ∀ m s, 0 < s → (ofPdf (F.pdf m s)).real (Set.Iic q1) = 1 / 4 →
      (ofPdf (F.pdf m s)).real (Set.Iic q2) = 1 / 2 → m = q2 ∧ s = (q2 - q1) / z := by
    intro m s hs a b
    rw [e m s hs, ← nz] at a
    rw [e m s hs, ← upTo_zero hg] at b
    have a' := (upTo_mono hg).injective a
    have b' := (upTo_mono hg).injective b
    rw [div_eq_iff hs.ne', zero_mul] at b'
    rw [div_eq_iff hs.ne'] at a'
    have hm : m = q2 := by linarith
    refine ⟨hm, ?_⟩
    rw [eq_div_iff z0.ne']
    rw [hm] at a'
    linarith
  refine ⟨⟨?_, fun hq => ?_⟩, z, z0, key⟩
  · rintro ⟨m, s, hs, a, b, c⟩
    obtain ⟨hm, hs'⟩ := key m s hs a b
    rw [e m s hs, ← hz] at c
    have c' := (upTo_mono hg).injective c
    rw [div_eq_iff hs.ne', hm, hs', mul_div_cancel₀ _ z0.ne'] at c'
    linarith
  · have hs : 0 < (q2 - q1) / z := div_pos (by linarith) z0
    refine ⟨q2, (q2 - q1) / z, hs, ?_, ?_, ?_⟩
    · rw [e _ _ hs, ← nz]
      congr 1
      have : q2 - q1 ≠ 0 := by linarith
      field_simp
      ring
    · rw [e _ _ hs, sub_self, zero_div, upTo_zero hg]
    · rw [e _ _ hs, ← hz]
      congr 1
      have : q2 - q1 ≠ 0 := by linarith
      rw [← hq]
      field_simp

/-- **C116**: two quantiles determine the distribution: for levels in increasing order there is one exactly if the values
increase too, and only one. -/
theorem quantiles_iff (F : PeakFam) (hF : F.Ok) (p1 p2 x1 x2 : ℝ) (h0 : 0 < p1) (h : p1 < p2) (h1 : p2 < 1) :
    ((∃ m s, 0 < s ∧ (ofPdf (F.pdf m s)).real (Set.Iic x1) = p1 ∧ (ofPdf (F.pdf m s)).real (Set.Iic x2) = p2) ↔ x1 < x2) ∧
    ∀ m s m' s', 0 < s → 0 < s' → (ofPdf (F.pdf m s)).real (Set.Iic x1) = p1 → (ofPdf (F.pdf m s)).real (Set.Iic x2) = p2 →
      (ofPdf (F.pdf m' s')).real (Set.Iic x1) = p1 → (ofPdf (F.pdf m' s')).real (Set.Iic x2) = p2 → m = m' ∧ s = s' := by
  have hg := peak_fam F hF
  have e : ∀ m s, 0 < s → ∀ x, (ofPdf (F.pdf m s)).real (Set.Iic x) = upTo (F.pdf 0 1) ((x - m) / s) := by
    intro m s hs x
    rw [fam_moved F m hs, cdf_moved hg m hs]
  obtain ⟨z1, hz1⟩ := upTo_exists hg h0 (h.trans h1)
  obtain ⟨z2, hz2⟩ := upTo_exists hg (h0.trans h) h1
  have hz : z1 < z2 := by rw [← (upTo_mono hg).lt_iff_lt, hz1, hz2]; exact h
  have key : ∀ m s, 0 < s → (ofPdf (F.pdf m s)).real (Set.Iic x1) = p1 → (ofPdf (F.pdf m s)).real (Set.Iic x2) = p2 →
      x1 - m = z1 * s ∧ x2 - m = z2 * s := by
    intro m s hs a b
    rw [e m s hs, ← hz1] at a
    rw [e m s hs, ← hz2] at b
    have a' := (upTo_mono hg).injective a
    have b' := (upTo_mono hg).injective b
    rw [div_eq_iff hs.ne'] at a' b'
    exact ⟨a', b'⟩
  refine ⟨⟨?_, fun hx => ?_⟩, ?_⟩
  · rintro ⟨m, s, hs, a, b⟩
    obtain ⟨a', b'⟩ := key m s hs a b
    nlinarith
  · have hd : 0 < z2 - z1 := by linarith
    have hs : 0 < (x2 - x1) / (z2 - z1) := div_pos (by linarith) hd
    have hx' : x2 - x1 ≠ 0 := by linarith
    refine ⟨x1 - z1 * ((x2 - x1) / (z2 - z1)), _, hs, ?_, ?_⟩
    · rw [e _ _ hs, ← hz1]
      congr 1
      rw [div_eq_iff hs.ne']; ring
    · rw [e _ _ hs, ← hz2]
      congr 1
      rw [div_eq_iff hs.ne']
      field_simp
      ring
  · intro m s m' s' hs hs' a b a' b'
    obtain ⟨k1, k2⟩ := key m s hs a b
    obtain ⟨k1', k2'⟩ := key m' s' hs' a' b'
    have e1 : (z2 - z1) * (s - s') = 0 := by linarith
    have e2 : s = s' := by
      rcases mul_eq_zero.1 e1 with h' | h'
      · linarith
      · linarith
    exact ⟨by rw [e2] at k1; linarith, e2⟩

/-! ### maxent and quartile -/

theorem peak_candidate (F : PeakFam) (o : Obj) (ho : construct F.family F.given = .ok o) (m s : ℝ) (o1 o2 : Obj)
    (h : applyCandidate F.family o.names (getFixedParams o).1 (getFixedParams o).2 [m, s] o1 = .ok o2) :
    law F.family o2 = F.values m s := by
  cases F <;>
    simp [construct, PeakFam.family, PeakFam.given, parametrize, normalParam, studentTParam, simpleParam, simpleFam,
      allNotNone, blank, Obj.setAll, Obj.set, Except.ok_bind', Except.pure_eq] at ho <;>
    subst ho <;>
    simp [applyCandidate, getFixedParams, splitStep, getParams, getParamsFrom, Function.update, Except.map, Except.ok_bind',
      PeakFam.family, parametrize, kwCall, List.lookup, normalParam, studentTParam, simpleParam, simpleFam, simpleUpdate,
      allNotNone, Obj.setAll, Obj.set, normalUpdate, studentTUpdate, Except.pure_eq, List.zipIdx] at h <;>
    subst h <;>
    simp [law, lawAttrs, PeakFam.family, PeakFam.values, Obj.setAll, Obj.set, Function.update]

/-- **C116**: maxent.  Let the runs completed before the first failure end at proper distributions (positive scale) and report
their entropies, and let one of them end at the optimum of `centred_best`.  Then the distribution returned has at least the
entropy of the optimum and gives the interval the mass up to 1e-4, so its scale lies between that of the optimum and that of
the centred distribution with a mass 1e-4 smaller.  If the completed runs that pass the check give the interval exactly the
mass, the distribution returned is the optimum. -/
theorem maxent_centred (F : PeakFam) (hF : F.Ok) (o : Obj) (ho : construct F.family F.given = .ok o)
    (b : ℝ → ℝ → Base) (hb : ∀ m s, 0 < s → (b m s).discrete = false ∧ (b m s).law = ofPdf (F.pdf m s))
    (l u p : ℝ) (hlu : l < u) (best : ℝ) (hbest : 0 < best) (hmass : massOf (F.pdf ((l + u) / 2) best) l u = p)
    (err : List ℝ → Option ℝ) (herr : ∀ m s, 0 < s → err [m, s] = some |probBound (b m s) l u p none|)
    (done : List Opt) (rest : List (Except Err Opt)) (hrest : ∀ r, rest.head? = some r → ∃ e, r = .error e)
    (hdone : ∀ r ∈ done, ∃ m s, 0 < s ∧ r.x = [m, s] ∧ r.value = some ((-entropyOf (F.pdf m s) : ℝ) : EReal))
    (hopt : ∃ r ∈ done, r.x = [(l + u) / 2, best])
    (o1 o2 : Obj) (r : Opt)
    (h : optimizeMaxEnt F.family o.names (getFixedParams o).1 (getFixedParams o).2 err (done.map .ok ++ rest) o1 =
      .ok (r, o2)) :
    ∃ m s, law F.family o2 = F.values m s ∧ best ≤ s ∧
      entropyOf (F.pdf ((l + u) / 2) best) ≤ entropyOf (F.pdf m s) ∧
      |massOf (F.pdf m s) l u - p| < 1 / 10000 ∧
      (∀ s', 0 < s' → massOf (F.pdf ((l + u) / 2) s') l u = p - 1 / 10000 → s < s') ∧
      ((∀ r' ∈ done, ∀ m' s', r'.x = [m', s'] → |massOf (F.pdf m' s') l u - p| < 1 / 10000 →
        massOf (F.pdf m' s') l u = p) → m = (l + u) / 2 ∧ s = best) := by
  have herr' : ∀ m s, 0 < s → err [m, s] = some |massOf (F.pdf m s) l u - p| := by
    intro m s hs
    obtain ⟨h1, h2⟩ := hb m s hs
    rw [herr m s hs, constraint_is_mass _ _ _ _ hlu.le (by simp [h1]), h2]
    rfl
  obtain ⟨h1, h2⟩ := maxent_leaves_selected _ _ _ _ _ _ _ _ _ h
  obtain ⟨r0, hr0, hx0⟩ := hopt
  obtain ⟨m0, s0, hs0, hx0', hv0⟩ := hdone r0 hr0
  rw [hx0] at hx0'
  simp only [List.cons.injEq, and_true] at hx0'
  obtain ⟨rfl, rfl⟩ := hx0'
  have hfeas : Feasible err r0 ((-entropyOf (F.pdf ((l + u) / 2) best) : ℝ) : EReal) :=
    ⟨⟨_, by rw [hx0]; exact herr' _ _ hs0, by rw [hmass, sub_self, abs_zero]; norm_num⟩, hv0⟩
  obtain ⟨i, r', v, e1, e2, e3, e4, -⟩ := maxent_selects err done rest hrest r0 hr0 _ hfeas (EReal.coe_ne_top _)
  rw [h1] at e1
  simp only [Except.ok.injEq] at e1
  subst e1
  have hrd := List.mem_of_getElem? e2
  obtain ⟨m, s, hs, hx, hv⟩ := hdone r hrd
  rw [hx] at h2
  obtain ⟨⟨e, he, hlt⟩, hv'⟩ := e3
  rw [hx, herr' _ _ hs] at he
  simp only [Option.some.injEq] at he
  subst he
  rw [hv] at hv'
  simp only [Option.some.injEq] at hv'
  have hle := e4 r0 hr0 _ hfeas
  rw [← hv', EReal.coe_le_coe_iff, neg_le_neg_iff] at hle
  have hbs : best ≤ s := by
    have := hle
    rw [entropy_eq hF _ hbest, entropy_eq hF _ hs] at this
    exact (Real.log_le_log_iff hbest hs).1 (by linarith)
  refine ⟨m, s, peak_candidate F o ho m s o1 o2 h2, hbs, hle, hlt, fun s' hs' hm' => ?_, fun hex => ?_⟩
  · by_contra hc
    have a := mass_le_centre hF m hs hlu
    have b : massOf (F.pdf ((l + u) / 2) s) l u ≤ massOf (F.pdf ((l + u) / 2) s') l u := by
      rcases (not_lt.1 hc).lt_or_eq with h' | h'
      · exact (mass_centre_lt hF hs' h' hlu).le
      · rw [h']
    have := (abs_lt.1 hlt).1
    linarith
  · have hm := hex r hrd m s hx hlt
    have hp := mass_centre hF hbest hlu.le
    have p0 : 0 < p := by
      rw [← hmass, hp]
      have h' := around_mono (peak_fam F hF) 0 (show (0 : ℝ) < (u - l) / (2 * best) by have := sub_pos.2 hlu; positivity)
      simpa [around] using h'
    have p1 : p < 1 := by rw [← hmass, hp]; exact around_lt_one (peak_fam F hF) _
    obtain ⟨k, hk, hkm, hkb⟩ := centred_best F hF l u p hlu p0 p1
    have hk' : best = k := by
      have := hkb _ _ hbest hmass
      rcases lt_trichotomy best k with h' | h' | h'
      · have := mass_centre_lt hF hbest h' hlu; linarith
      · exact h'
      · have := mass_centre_lt hF hk h' hlu; linarith
    subst hk'
    obtain ⟨a, b⟩ := hkb m s hs hm
    exact b (le_antisymm a hle)

/-- **C116**: a mass of one is accepted (maxent.py:114), but no distribution of the family has it on a bounded interval. -/
theorem mass_one_unmet (F : PeakFam) (hF : F.Ok) (l u m s : ℝ) (h : l < u) (hs : 0 < s) :
    massOf (F.pdf m s) l u < 1 := by
  refine (mass_le_centre hF m hs h).trans_lt ?_
  rw [mass_centre hF hs h.le]
  exact around_lt_one (peak_fam F hF) _

/-- **C116**: for a mass below 1e-4 the check says nothing: wide distributions pass it, and are preferred to the optimum. -/
theorem tiny_mass_unchecked (F : PeakFam) (hF : F.Ok) (l u p : ℝ) (hlu : l < u) (h0 : 0 < p) (h1 : p < 1 / 10000) :
    ∃ s₀, 0 < s₀ ∧ ∀ m s, s₀ ≤ s → |massOf (F.pdf m s) l u - p| < 1 / 10000 ∧
      ∀ m' s', 0 < s' → massOf (F.pdf m' s') l u = p → entropyOf (F.pdf m' s') < entropyOf (F.pdf m s) := by
  obtain ⟨k, hk, hkm, hkb⟩ := centred_best F hF l u p hlu h0 (by linarith)
  refine ⟨k + 1, by linarith, fun m s hs => ?_⟩
  have s0 : 0 < s := by linarith
  have a := mass_le_centre hF m s0 hlu
  have b := mass_centre_lt hF hk (by linarith : k < s) hlu
  have c : 0 ≤ massOf (F.pdf m s) l u := measureReal_nonneg
  refine ⟨by rw [abs_lt]; constructor <;> linarith, fun m' s' hs' hm' => ?_⟩
  refine lt_of_le_of_lt (hkb m' s' hs' hm').1 ?_
  rw [entropy_eq hF _ hk, entropy_eq hF _ s0]
  have := Real.log_lt_log hk (by linarith : k < s)
  linarith

theorem peak_filled (F : PeakFam) (o d : Obj) (ho : construct F.family F.given = .ok o) (x : List ℝ)
    (kvs : List (String × ℝ)) (hk : Filled o.names o.attr x kvs) (hd : construct F.family (fun k => kvs.lookup k) = .ok d) :
    ∃ m s, x = [m, s] ∧ law F.family d = F.values m s := by
  obtain ⟨k1, k2, k3⟩ := hk
  have two : ∀ a c : String, kvs.map Prod.fst = [a, c] → ∃ v w, kvs = [(a, v), (c, w)] := by
    intro a c h
    match kvs, h with
    | [(a', v), (c', w)], h =>
      simp only [List.map_cons, List.map_nil, List.cons.injEq, and_true] at h
      obtain ⟨rfl, rfl⟩ := h
      exact ⟨v, w, rfl⟩
  have three : ∀ a c e : String, kvs.map Prod.fst = [a, c, e] → ∃ v w z, kvs = [(a, v), (c, w), (e, z)] := by
    intro a c e h
    match kvs, h with
    | [(a', v), (c', w), (e', z)], h =>
      simp only [List.map_cons, List.map_nil, List.cons.injEq, and_true] at h
      obtain ⟨rfl, rfl, rfl⟩ := h
      exact ⟨v, w, z, rfl⟩
  cases F <;>
    simp [construct, PeakFam.family, PeakFam.given, parametrize, normalParam, studentTParam, simpleParam, simpleFam,
      allNotNone, blank, Obj.setAll, Obj.set, Except.ok_bind', Except.pure_eq] at ho <;>
    subst ho <;> dsimp only at k1 k2 k3
  case studentT n =>
    obtain ⟨v, w, z, rfl⟩ := three _ _ _ k1
    have e := k2 ("nu", v) (by simp) n (by simp [Function.update])
    simp [Function.update] at k3
    simp only at e
    subst e
    simp [construct, PeakFam.family, parametrize, studentTParam, studentTUpdate, List.lookup, allNotNone, blank, Obj.setAll,
      Obj.set, Except.ok_bind', Except.pure_eq] at hd
    subst hd
    exact ⟨w, z, k3.symm, by simp [law, lawAttrs, PeakFam.family, PeakFam.values, Obj.setAll, Obj.set, Function.update]⟩
  all_goals
    obtain ⟨v, w, rfl⟩ := two _ _ k1
    simp [Function.update] at k3
    simp [construct, PeakFam.family, parametrize, normalParam, normalUpdate, simpleParam, simpleFam, simpleUpdate, List.lookup,
      allNotNone, blank, Obj.setAll, Obj.set, Except.ok_bind', Except.pure_eq] at hd
    subst hd
    exact ⟨v, w, k3.symm, by simp [law, lawAttrs, PeakFam.family, PeakFam.values, Obj.setAll, Obj.set, Function.update]⟩

theorem peak_free (F : PeakFam) (o : Obj) (ho : construct F.family F.given = .ok o) :
    freeBounds o F.box = [(⊥, ⊤), (((eps : ℝ) : EReal), ⊤)] := by
  cases F <;>
    simp [construct, PeakFam.family, PeakFam.given, parametrize, normalParam, studentTParam, simpleParam, simpleFam,
      allNotNone, blank, Obj.setAll, Obj.set, Except.ok_bind', Except.pure_eq] at ho <;>
    subst ho <;>
    simp [freeBounds, getFixedParams, splitStep, Function.update, List.zipIdx, PeakFam.box]

theorem loc_scale_in (m s : ℝ) : InBox [(⊥, ⊤), (((eps : ℝ) : EReal), ⊤)] [m, s] ↔ eps ≤ s := by
  unfold InBox
  constructor
  · intro h
    have := (h.2 1 (by simp) (by simp)).1
    simpa using this
  · intro h
    refine ⟨rfl, fun i hi _ => ?_⟩
    simp only [List.length_cons, List.length_nil] at hi
    interval_cases i <;> simp [h]

theorem peak_choice (F : PeakFam) (o : Obj) (ho : construct F.family F.given = .ok o) (m s : ℝ) (hs : eps ≤ s) :
    ∃ d, Choice F.family o (freeBounds o F.box) d ∧ law F.family d = F.values m s := by
  rw [peak_free F o ho]
  have hin := (loc_scale_in m s).2 hs
  cases F <;>
    simp [construct, PeakFam.family, PeakFam.given, parametrize, normalParam, studentTParam, simpleParam, simpleFam,
      allNotNone, blank, Obj.setAll, Obj.set, Except.ok_bind', Except.pure_eq] at ho <;>
    subst ho
  case studentT n =>
    refine ⟨_, ⟨fun k => if k = "nu" then some n else if k = "mu" then some m else if k = "sigma" then some s else none,
      by simp [construct, PeakFam.family, parametrize, studentTParam, studentTUpdate, allNotNone, Except.ok_bind',
        Except.pure_eq]; rfl, ?_, ?_, ?_⟩, ?_⟩
    · intro k
      simp only [List.mem_cons, List.not_mem_nil, or_false]
      split_ifs <;> simp_all
    · intro k hk v hv
      simp only [List.mem_cons, List.not_mem_nil, or_false] at hk
      rcases hk with rfl | rfl | rfl <;> simp [Function.update] at hv ⊢
      exact hv
    · simpa [Function.update] using hin
    · simp [law, lawAttrs, PeakFam.family, PeakFam.values, Obj.setAll, Obj.set, Function.update]
  case cauchy =>
    refine ⟨_, ⟨fun k => if k = "alpha" then some m else if k = "beta" then some s else none,
      by simp [construct, PeakFam.family, parametrize, simpleParam, simpleFam, simpleUpdate, allNotNone]; rfl, ?_, ?_, ?_⟩, ?_⟩
    · intro k
      simp only [List.mem_cons, List.not_mem_nil, or_false]
      split_ifs <;> simp_all
    · intro k hk v hv
      simp [Function.update] at hv
    · simpa [Function.update] using hin
    · simp [law, lawAttrs, PeakFam.family, PeakFam.values, Obj.setAll, Obj.set, Function.update]
  case normal =>
    refine ⟨_, ⟨fun k => if k = "mu" then some m else if k = "sigma" then some s else none,
      by simp [construct, PeakFam.family, parametrize, normalParam, normalUpdate, allNotNone, Except.ok_bind',
        Except.pure_eq]; rfl, ?_, ?_, ?_⟩, ?_⟩
    · intro k
      simp only [List.mem_cons, List.not_mem_nil, or_false]
      split_ifs <;> simp_all
    · intro k hk v hv
      simp [Function.update] at hv
    · simpa [Function.update] using hin
    · simp [law, lawAttrs, PeakFam.family, PeakFam.values, Obj.setAll, Obj.set, Function.update]
  case laplace =>
    refine ⟨_, ⟨fun k => if k = "mu" then some m else if k = "b" then some s else none,
      by simp [construct, PeakFam.family, parametrize, simpleParam, simpleFam, simpleUpdate, allNotNone]; rfl, ?_, ?_, ?_⟩, ?_⟩
    · intro k
      simp only [List.mem_cons, List.not_mem_nil, or_false]
      split_ifs <;> simp_all
    · intro k hk v hv
      simp [Function.update] at hv
    · simpa [Function.update] using hin
    · simp [law, lawAttrs, PeakFam.family, PeakFam.values, Obj.setAll, Obj.set, Function.update]
  case logistic =>
    refine ⟨_, ⟨fun k => if k = "mu" then some m else if k = "s" then some s else none,
      by simp [construct, PeakFam.family, parametrize, simpleParam, simpleFam, simpleUpdate, allNotNone]; rfl, ?_, ?_, ?_⟩, ?_⟩
    · intro k
      simp only [List.mem_cons, List.not_mem_nil, or_false]
      split_ifs <;> simp_all
    · intro k hk v hv
      simp [Function.update] at hv
    · simpa [Function.update] using hin
    · simp [law, lawAttrs, PeakFam.family, PeakFam.values, Obj.setAll, Obj.set, Function.update]

private theorem eps_pos' : (0 : ℝ) < eps := by unfold eps; positivity

/-- **C116**: quartile.  With an optimiser that finds the minimum: if the median asked for is halfway between the quartiles
(and they are not closer than the smallest scale allowed) the distribution returned is located at the median and has the three
quartiles; there is no other in the family.  If it is not halfway, none of the three residuals of any distribution in the
family vanish together: the quartiles asked for are missed. -/
theorem quartile_halfway (F : PeakFam) (hF : F.Ok) (o o1 : Obj) (ho : construct F.family F.given = .ok o)
    (cdf : List (Option ℝ) → ℝ → ℝ)
    (hcdf : ∀ m s, 0 < s → ∀ x, cdf (F.values m s) x = (ofPdf (F.pdf m s)).real (Set.Iic x))
    (q1 q2 q3 : ℝ) (hq : q1 < q2) (opt : Optimiser) (G : List ℝ → Except Err (List ℝ))
    (hG : IsObjective F.family o.names o.attr (fun l => [cdf l q1 - 1 / 4, cdf l q2 - 1 / 2, cdf l q3 - 3 / 4]) G)
    (hfind : Finds opt G (startAt o o1) (freeBounds o F.box)) :
    Gives (optimizeQuartile opt F.family cdf q1 q2 q3 o.names F.box (getFixedParams o).1 (getFixedParams o).2 o1) fun r =>
      ∃ m s, eps ≤ s ∧ law F.family r.2 = F.values m s ∧
        (q2 - q1 = q3 - q2 → (∀ s', 0 < s' → (ofPdf (F.pdf q2 s')).real (Set.Iic q1) = 1 / 4 → eps ≤ s') →
          m = q2 ∧ (ofPdf (F.pdf q2 s)).real (Set.Iic q1) = 1 / 4 ∧ (ofPdf (F.pdf q2 s)).real (Set.Iic q2) = 1 / 2 ∧
          (ofPdf (F.pdf q2 s)).real (Set.Iic q3) = 3 / 4) ∧
        (q2 - q1 ≠ q3 - q2 → ¬ ((ofPdf (F.pdf m s)).real (Set.Iic q1) = 1 / 4 ∧ (ofPdf (F.pdf m s)).real (Set.Iic q2) = 1 / 2 ∧
          (ofPdf (F.pdf m s)).real (Set.Iic q3) = 3 / 4)) := by
  have he : quartileResidual cdf q1 q2 q3 = fun l => [cdf l q1 - 1 / 4, cdf l q2 - 1 / 2, cdf l q3 - 3 / 4] := by
    funext l; unfold quartileResidual; norm_num
  have hsc : ScaledNames F.family o.names := by
    intro h; cases F <;> simp [PeakFam.family] at h
  obtain ⟨x, o', e1, e2, ⟨kvs, d, e3, e4, e5, -⟩, e6⟩ := fit_best opt F.family o o1 hsc F.box _ G hG hfind
  obtain ⟨m, s, rfl, e7⟩ := peak_filled F o d ho x kvs e3 e4
  rw [peak_free F o ho, loc_scale_in] at e2
  have hs : 0 < s := eps_pos'.trans_le e2
  refine ⟨(_, o'), by unfold optimizeQuartile; rw [he]; exact e1, m, s, e2, e5.trans e7, fun hh hmin => ?_, fun hh hc => ?_⟩
  · obtain ⟨hiff, z, z0, hz⟩ := quartiles_iff F hF q1 q2 q3 hq
    obtain ⟨m', s', hs', a, b, c⟩ := hiff.2 hh
    obtain ⟨hm, -⟩ := hz m' s' hs' a b
    subst hm
    obtain ⟨d', hd', hl'⟩ := peak_choice F o ho m' s' (hmin s' hs' a)
    obtain ⟨r, hr, r1, r2, r3⟩ := quartile_exact opt F.family cdf q1 m' q3 o o1 hsc F.box G hG hfind d' hd'
      (by rw [hl', hcdf _ _ hs', a]) (by rw [hl', hcdf _ _ hs', b]) (by rw [hl', hcdf _ _ hs', c])
    have : r = ([m, s], o') := by
      unfold optimizeQuartile at hr
      rw [he, e1] at hr
      simpa using hr.symm
    subst this
    dsimp only at r1 r2 r3
    rw [e5, e7, hcdf _ _ hs] at r1 r2 r3
    obtain ⟨hm, -⟩ := hz m s hs r1 r2
    subst hm
    exact ⟨rfl, r1, r2, r3⟩
  · exact hh ((quartiles_iff F hF q1 q2 q3 hq).1.1 ⟨m, s, hs, hc⟩)

/-! The hypotheses are met. -/

theorem peakPdf_prob {F : PeakFam} (hF : F.Ok) (m : ℝ) {s : ℝ} (hs : 0 < s) : IsProbabilityMeasure (ofPdf (F.pdf m s)) := by
  have hg := peak_fam F hF
  have h0 : ∀ y, 0 ≤ moved (F.pdf 0 1) m s y := fun y => div_nonneg (hg.nonneg _) hs.le
  rw [fam_moved F m hs]
  constructor
  unfold ofPdf
  rw [withDensity_apply _ MeasurableSet.univ, Measure.restrict_univ,
    ← ofReal_integral_eq_lintegral_ofReal (moved_int hg m hs) (Filter.Eventually.of_forall h0)]
  have : ∫ x, moved (F.pdf 0 1) m s x = 1 := by
    have e : moved (F.pdf 0 1) m s = fun x => F.pdf 0 1 ((x - m) / s) / s := rfl
    rw [e, integral_div, integral_sub_right_eq_self (fun x => F.pdf 0 1 (x / s)) m, Measure.integral_comp_div, hg.one,
      smul_eq_mul, mul_one, abs_of_pos hs, div_self hs.ne']
  rw [this, ENNReal.ofReal_one]

/-- the distributions of a family as continuous bases -/
noncomputable def peakBase (F : PeakFam) (hF : F.Ok) (m s : ℝ) : Base :=
  if hs : 0 < s then
    haveI := peakPdf_prob hF m hs
    haveI : IsProbabilityMeasure (volume.withDensity fun x => ENNReal.ofReal (F.pdf m s x)) := peakPdf_prob hF m hs
    densityBase (F.pdf m s) (by rw [fam_moved F m hs]; exact moved_meas (peak_fam F hF) m s)
      (by rw [fam_moved F m hs]; exact fun y => div_nonneg ((peak_fam F hF).nonneg _) hs.le) ⊥ ⊤ (by simp)
  else unif 0 1 (by norm_num)

/-- `maxent(StudentT(nu=4), 0, 12, mass)`: one run ends elsewhere, the next at the optimum, the third fails -/
example : ∃ (best p : ℝ) (o o2 : Obj) (r : Opt) (err : List ℝ → Option ℝ) (done : List Opt),
    0 < best ∧ massOf ((PeakFam.studentT 4).pdf ((0 + 12) / 2) best) 0 12 = p ∧ p = 9 / 10 ∧
    construct .studentT (PeakFam.studentT 4).given = .ok o ∧
    (∀ m s, 0 < s → err [m, s] = some |probBound (peakBase (.studentT 4) (by norm_num [PeakFam.Ok]) m s) 0 12 p none|) ∧
    (∀ m s, 0 < s → (peakBase (.studentT 4) (by norm_num [PeakFam.Ok]) m s).discrete = false ∧
      (peakBase (.studentT 4) (by norm_num [PeakFam.Ok]) m s).law = ofPdf ((PeakFam.studentT 4).pdf m s)) ∧
    done.length = 2 ∧
    (∀ r ∈ done, ∃ m s, 0 < s ∧ r.x = [m, s] ∧
      r.value = some ((-entropyOf ((PeakFam.studentT 4).pdf m s) : ℝ) : EReal)) ∧
    (∃ r ∈ done, r.x = [(0 + 12) / 2, best]) ∧
    optimizeMaxEnt .studentT o.names (getFixedParams o).1 (getFixedParams o).2 err (done.map .ok ++ [.error .valueError]) o =
      .ok (r, o2) := by
  have hF : (PeakFam.studentT 4).Ok := by norm_num [PeakFam.Ok]
  obtain ⟨best, hb, hm, -⟩ := centred_best (.studentT 4) hF 0 12 (9 / 10) (by norm_num) (by norm_num) (by norm_num)
  have hbase : ∀ m s, 0 < s → (peakBase (.studentT 4) hF m s).discrete = false ∧
      (peakBase (.studentT 4) hF m s).law = ofPdf ((PeakFam.studentT 4).pdf m s) := by
    intro m s hs
    unfold peakBase
    rw [dif_pos hs]
    exact ⟨rfl, rfl⟩
  set val : ℝ → ℝ → Option EReal := fun m s => some ((-entropyOf ((PeakFam.studentT 4).pdf m s) : ℝ) : EReal) with hval
  set err : List ℝ → Option ℝ := fun x => match x with
    | [m, s] => some |probBound (peakBase (.studentT 4) hF m s) 0 12 (9 / 10) none|
    | _ => none with herr
  obtain ⟨o, ho⟩ : ∃ o, construct .studentT (PeakFam.studentT 4).given = .ok o := by
    simp [construct, PeakFam.given, parametrize, studentTParam, allNotNone, Except.ok_bind', Except.pure_eq]
  have hap : ∀ m s, ∃ o2, applyCandidate .studentT o.names (getFixedParams o).1 (getFixedParams o).2 [m, s] o = .ok o2 := by
    intro m s
    simp [construct, PeakFam.given, parametrize, studentTParam, allNotNone, Except.ok_bind', Except.pure_eq, Obj.setAll,
      Obj.set, blank] at ho
    subst ho
    simp [applyCandidate, getFixedParams, splitStep, getParams, getParamsFrom, Function.update, Except.map, Except.ok_bind',
      parametrize, kwCall, List.lookup, studentTParam, allNotNone, Except.pure_eq, List.zipIdx]
  have hsel : ∃ r m s, selectOpt err ([⟨[1, 1], val 1 1⟩, ⟨[(0 + 12) / 2, best], val ((0 + 12) / 2) best⟩].map .ok ++
      [.error .valueError]) = .ok r ∧ r.x = [m, s] := by
    obtain ⟨i, r, v, e1, e2, -⟩ := maxent_selects err
      [⟨[1, 1], val 1 1⟩, ⟨[(0 + 12) / 2, best], val ((0 + 12) / 2) best⟩] [.error .valueError] (by simp)
      ⟨[(0 + 12) / 2, best], val ((0 + 12) / 2) best⟩ (by simp)
      ((-entropyOf ((PeakFam.studentT 4).pdf ((0 + 12) / 2) best) : ℝ) : EReal)
      ⟨⟨_, rfl, by
        rw [constraint_is_mass _ _ _ _ (by norm_num) (by simp [(hbase _ _ hb).1]), (hbase _ _ hb).2]
        change |massOf _ 0 12 - _| < _
        rw [hm]; norm_num⟩, rfl⟩ (EReal.coe_ne_top _)
    have := List.mem_of_getElem? e2
    simp only [List.mem_cons, List.not_mem_nil, or_false] at this
    rcases this with rfl | rfl
    · exact ⟨_, 1, 1, e1, rfl⟩
    · exact ⟨_, _, _, e1, rfl⟩
  obtain ⟨r, m, s, hr, hx⟩ := hsel
  obtain ⟨o2, ho2⟩ := hap m s
  refine ⟨best, 9 / 10, o, o2, r, err, [⟨[1, 1], val 1 1⟩, ⟨[(0 + 12) / 2, best], val ((0 + 12) / 2) best⟩], hb, hm, rfl, ho,
    fun m s _ => rfl, hbase, rfl, ?_, ⟨_, List.mem_cons_of_mem _ (List.mem_singleton.2 rfl), rfl⟩, ?_⟩
  · intro r hr
    simp only [List.mem_cons, List.not_mem_nil, or_false] at hr
    rcases hr with rfl | rfl
    · exact ⟨1, 1, one_pos, rfl, rfl⟩
    · exact ⟨_, _, hb, rfl, rfl⟩
  · unfold optimizeMaxEnt
    rw [hr]
    simp only [Except.ok_bind']
    rw [hx, ho2]
    rfl

/-- a Laplace distribution elicited from its own quartiles -/
example : ∃ (o : Obj) (q1 q2 q3 : ℝ) (cdf : List (Option ℝ) → ℝ → ℝ) (opt : Optimiser) (G : List ℝ → Except Err (List ℝ)),
    construct (.simple .laplace) PeakFam.laplace.given = .ok o ∧ q1 < q2 ∧ q2 - q1 = q3 - q2 ∧
    (∀ m s, 0 < s → ∀ x, cdf (PeakFam.laplace.values m s) x = (ofPdf (PeakFam.laplace.pdf m s)).real (Set.Iic x)) ∧
    IsObjective (.simple .laplace) o.names o.attr (fun l => [cdf l q1 - 1 / 4, cdf l q2 - 1 / 2, cdf l q3 - 3 / 4]) G ∧
    Finds opt G (startAt o o) (freeBounds o PeakFam.laplace.box) ∧
    ∀ s', 0 < s' → (ofPdf (PeakFam.laplace.pdf q2 s')).real (Set.Iic q1) = 1 / 4 → eps ≤ s' := by
  have hF : PeakFam.laplace.Ok := trivial
  have hg := peak_fam PeakFam.laplace hF
  obtain ⟨z, hz⟩ := upTo_exists hg (p := 3 / 4) (by norm_num) (by norm_num)
  have z0 : 0 < z := by rw [← (upTo_mono hg).lt_iff_lt, hz, upTo_zero hg]; norm_num
  have nz : upTo (PeakFam.laplace.pdf 0 1) (-z) = 1 / 4 := by rw [upTo_neg hg, hz]; norm_num
  have e : ∀ m s, 0 < s → ∀ x, (ofPdf (PeakFam.laplace.pdf m s)).real (Set.Iic x) =
      upTo (PeakFam.laplace.pdf 0 1) ((x - m) / s) := by
    intro m s hs x
    rw [fam_moved PeakFam.laplace m hs, cdf_moved hg m hs]
  obtain ⟨o, ho⟩ : ∃ o, construct (.simple .laplace) PeakFam.laplace.given = .ok o := ⟨_, rfl⟩
  have hbox := peak_free .laplace o ho
  set cdf : List (Option ℝ) → ℝ → ℝ := fun l x =>
    (ofPdf (PeakFam.laplace.pdf ((l[0]?.join).getD 0) ((l[1]?.join).getD 0))).real (Set.Iic x) with hcdf
  set res : List (Option ℝ) → List ℝ := fun l => [cdf l (-z) - 1 / 4, cdf l 0 - 1 / 2, cdf l z - 3 / 4] with hres
  set G : List ℝ → Except Err (List ℝ) := fun x => if x.length = 2 then
    .ok (res (x.map some)) else .error .valueError with hG
  refine ⟨o, -z, 0, z, cdf, fun _ _ => .ok (.ask [5, 5] fun _ => .stop [0, 1]), G, ho, by linarith, by ring, ?_, ⟨?_, ?_⟩, ?_, ?_⟩
  · intro m s hs x; rfl
  · intro cand kvs hk
    simp [construct, PeakFam.given, parametrize, simpleParam, simpleFam, allNotNone, blank, Obj.setAll, Obj.set] at ho
    subst ho
    obtain ⟨k1, k2, k3⟩ := hk
    match kvs, k1, k2, k3 with
    | [(a, m), (b, s)], k1, k2, k3 =>
      simp only [List.map_cons, List.map_nil, List.cons.injEq, and_true] at k1
      obtain ⟨rfl, rfl⟩ := k1
      simp [Function.update] at k3
      subst k3
      simp [hG, construct, parametrize, simpleParam, simpleFam, simpleUpdate, allNotNone, blank, Obj.setAll, Obj.set,
        List.lookup, Except.map, law, lawAttrs, Function.update, hres]
  · intro cand hc
    simp [construct, PeakFam.given, parametrize, simpleParam, simpleFam, allNotNone, blank, Obj.setAll, Obj.set] at ho
    subst ho
    simp [Function.update] at hc
    simp [hG, hc]
  · change Finds _ _ _ (freeBounds o PeakFam.laplace.box)
    rw [hbox]
    have hzero : res [some 0, some 1] = [0, 0, 0] := by
      simp only [hres, hcdf, List.getElem?_cons_zero, List.getElem?_cons_succ, Option.join_some, Option.getD_some]
      rw [e _ _ one_pos, e _ _ one_pos, e _ _ one_pos]
      norm_num [hz, nz, upTo_zero hg]
    refine ⟨_, rfl, [0, 1], [0, 0, 0], by simp [answer, hG], (loc_scale_in 0 1).2 (by unfold eps; norm_num), ?_, ?_⟩
    · rw [← hzero]; simp [hG]
    · intro y _ r' _
      have : 0 ≤ cost r' := List.sum_nonneg (by
        intro a ha
        obtain ⟨b, -, rfl⟩ := List.mem_map.1 ha
        positivity)
      simpa [cost] using this
  · intro s' hs' h'
    rw [e _ _ hs', ← nz] at h'
    have := (upTo_mono hg).injective h'
    rw [div_eq_iff hs'.ne'] at this
    have : s' = 1 := by
      have h2 : z * (s' - 1) = 0 := by linarith
      rcases mul_eq_zero.1 h2 with h3 | h3 <;> linarith
    rw [this]
    unfold eps; norm_num

/-- a Logistic with scale 2 and an interval around 1 -/
example : ∃ p, 0 < p ∧ p < massOf (PeakFam.logistic.pdf ((0 + 2) / 2) 2) 0 2 ∧ PeakFam.logistic.Ok :=
  ⟨massOf (PeakFam.logistic.pdf ((0 + 2) / 2) 2) 0 2 / 2, by
    have h : 0 < massOf (PeakFam.logistic.pdf ((0 + 2) / 2) 2) 0 2 := by
      rw [mass_centre (F := .logistic) trivial two_pos (by norm_num)]
      have h' := around_mono (peak_fam .logistic trivial) 0 (show (0 : ℝ) < (2 - 0) / (2 * 2) by norm_num)
      simpa [around] using h'
    exact ⟨by linarith, by linarith, trivial⟩⟩

end Verif.Props
