import Verif.Props.LocScale
import Verif.Model.Warnings

/-!
# C119: maxent with a fixed statistic

internal/optimization.py:14-24: the distance of the statistic from its target is subtracted from the error of the mass.  In the
families with a location and a scale the statistic is the location (it is the median and the mode; it is the mean where there
is one).
-/

namespace Verif.Props
open MeasureTheory Verif Verif.Spec Verif.Param Verif.Optim Verif.NumFit Verif.Modifier Verif.LocScale

private theorem fmass {F : PeakFam} (hF : F.Ok) (m : ℝ) {s : ℝ} (hs : 0 < s) {l u : ℝ} (h : l ≤ u) :
    massOf (F.pdf m s) l u = around (F.pdf 0 1) (((l + u) / 2 - m) / s) ((u - l) / (2 * s)) := by
  rw [fam_moved F m hs, mass_moved (peak_fam F hF) m hs h]

private theorem fmass_span {F : PeakFam} (hF : F.Ok) (m : ℝ) {s : ℝ} (hs : 0 < s) {l u : ℝ} (h : l ≤ u) :
    massOf (F.pdf m s) l u = ∫ x in ((l - m) / s)..((u - m) / s), F.pdf 0 1 x := by
  rw [fmass hF m hs h, around]
  congr 1 <;> field_simp <;> ring

/-- **C119**: the location is the median and the only mode. -/
theorem location_median_mode (F : PeakFam) (hF : F.Ok) (m s : ℝ) (hs : 0 < s) :
    (ofPdf (F.pdf m s)).real (Set.Iic m) = 1 / 2 ∧ ∀ x, x ≠ m → F.pdf m s x < F.pdf m s m := by
  have hg := peak_fam F hF
  rw [fam_moved F m hs, cdf_moved hg m hs, sub_self, zero_div, upTo_zero hg]
  refine ⟨rfl, fun x hx => ?_⟩
  unfold moved
  rw [sub_self, zero_div]
  refine div_lt_div_of_pos_right ?_ hs
  have hne : (x - m) / s ≠ 0 := div_ne_zero (sub_ne_zero.2 hx) hs.ne'
  rcases lt_or_gt_of_ne hne with h | h
  · rw [← hg.even]; exact hg.falls 0 _ le_rfl (by linarith)
  · exact hg.falls 0 _ le_rfl h

/-- what `prob_bound` returns: the error of the mass less the distance of the location from its target -/
private theorem stat_bound {F : PeakFam} {b : Base} {m s l u p t : ℝ} (hlu : l < u)
    (hb : b.discrete = false ∧ b.law = ofPdf (F.pdf m s)) :
    probBound b l u p (some (m - t)) = massOf (F.pdf m s) l u - p - |m - t| := by
  have := constraint_is_mass b l u p hlu.le (by simp [hb.1])
  unfold probBound at this ⊢
  dsimp only at this ⊢
  rw [this, hb.2]
  rfl

/-- **C119**: maxent with a fixed statistic.  Let the runs completed before the first failure end at proper distributions and
report their entropies.  If one of them passes the check (the mass exceeds the one asked for by the distance of the statistic
from its target, up to 1e-4), the distribution returned passes it and has the largest scale of all those; otherwise it is the
one of the first run. -/
theorem maxent_fixed_stat (F : PeakFam) (hF : F.Ok) (o : Obj) (ho : construct F.family F.given = .ok o)
    (b : ℝ → ℝ → Base) (hb : ∀ m s, 0 < s → (b m s).discrete = false ∧ (b m s).law = ofPdf (F.pdf m s))
    (l u p t : ℝ) (hlu : l < u)
    (err : List ℝ → Option ℝ) (herr : ∀ m s, 0 < s → err [m, s] = some |probBound (b m s) l u p (some (m - t))|)
    (done : List Opt) (rest : List (Except Err Opt)) (hrest : ∀ r, rest.head? = some r → ∃ e, r = .error e)
    (hdone : ∀ r ∈ done, ∃ m s, 0 < s ∧ r.x = [m, s] ∧ r.value = some ((-entropyOf (F.pdf m s) : ℝ) : EReal))
    (o1 o2 : Obj) (r : Opt)
    (h : optimizeMaxEnt F.family o.names (getFixedParams o).1 (getFixedParams o).2 err (done.map .ok ++ rest) o1 =
      .ok (r, o2)) :
    ∃ m s, 0 < s ∧ r.x = [m, s] ∧ law F.family o2 = F.values m s ∧ r ∈ done ∧
      ((∃ r' ∈ done, ∃ m' s', r'.x = [m', s'] ∧ |massOf (F.pdf m' s') l u - (p + |m' - t|)| < 1 / 10000) →
        |massOf (F.pdf m s) l u - (p + |m - t|)| < 1 / 10000 ∧
        ∀ r' ∈ done, ∀ m' s', r'.x = [m', s'] → |massOf (F.pdf m' s') l u - (p + |m' - t|)| < 1 / 10000 → s' ≤ s) ∧
      ((∀ r' ∈ done, ∀ m' s', r'.x = [m', s'] → 1 / 10000 ≤ |massOf (F.pdf m' s') l u - (p + |m' - t|)|) →
        done.head? = some r) := by
  have herr' : ∀ m s, 0 < s → err [m, s] = some |massOf (F.pdf m s) l u - (p + |m - t|)| := by
    intro m s hs
    rw [herr m s hs, stat_bound hlu (hb m s hs), sub_sub]
  have hent : ∀ {m s m' s' : ℝ}, 0 < s → 0 < s' → entropyOf (F.pdf m' s') ≤ entropyOf (F.pdf m s) → s' ≤ s := by
    intro m s m' s' hs hs' hle
    rw [fam_moved F m hs, fam_moved F m' hs', entropy_moved (peak_fam F hF) _ hs, entropy_moved (peak_fam F hF) _ hs'] at hle
    exact (Real.log_le_log_iff hs' hs).1 (by linarith)
  have hfe : ∀ r' ∈ done, ∀ m' s', r'.x = [m', s'] → 0 < s' ∧
      (|massOf (F.pdf m' s') l u - (p + |m' - t|)| < 1 / 10000 →
        Feasible err r' ((-entropyOf (F.pdf m' s') : ℝ) : EReal)) := by
    intro r' hr' m' s' hx
    obtain ⟨m, s, hs, hx', hval⟩ := hdone r' hr'
    rw [hx] at hx'
    simp only [List.cons.injEq, and_true] at hx'
    obtain ⟨rfl, rfl⟩ := hx'
    exact ⟨hs, fun hlt => ⟨⟨_, by rw [hx]; exact herr' _ _ hs, hlt⟩, hval⟩⟩
  have hef : ∀ r' ∈ done, ∀ m' s', r'.x = [m', s'] → ∀ w, Feasible err r' w →
      |massOf (F.pdf m' s') l u - (p + |m' - t|)| < 1 / 10000 ∧ w = ((-entropyOf (F.pdf m' s') : ℝ) : EReal) := by
    intro r' hr' m' s' hx w ⟨⟨e, he, hlt⟩, hval⟩
    obtain ⟨m, s, hs, hx', hval'⟩ := hdone r' hr'
    rw [hx] at hx'
    simp only [List.cons.injEq, and_true] at hx'
    obtain ⟨rfl, rfl⟩ := hx'
    rw [hx, herr' _ _ hs] at he
    simp only [Option.some.injEq] at he
    subst he
    rw [hval'] at hval
    simp only [Option.some.injEq] at hval
    exact ⟨hlt, hval.symm⟩
  obtain ⟨h1, h2⟩ := maxent_leaves_selected _ _ _ _ _ _ _ _ _ h
  by_cases hp : ∃ r' ∈ done, ∃ m' s', r'.x = [m', s'] ∧ |massOf (F.pdf m' s') l u - (p + |m' - t|)| < 1 / 10000
  · obtain ⟨r0, hr0, m0, s0, hx0, hlt0⟩ := hp
    obtain ⟨i, r', w, e1, e2, e3, e4, -⟩ :=
      maxent_selects err done rest hrest r0 hr0 _ ((hfe r0 hr0 m0 s0 hx0).2 hlt0) (EReal.coe_ne_top _)
    rw [h1] at e1
    simp only [Except.ok.injEq] at e1
    subst e1
    have hrd : r ∈ done := List.mem_of_getElem? e2
    obtain ⟨m, s, hs, hx, hval⟩ := hdone r hrd
    obtain ⟨hlt, rfl⟩ := hef r hrd m s hx w e3
    refine ⟨m, s, hs, hx, peak_candidate F o ho m s o1 o2 (by rw [← hx]; exact h2), hrd,
      fun _ => ⟨hlt, fun r' hr' m' s' hx' hlt' => ?_⟩, fun hno => absurd hlt (not_lt.2 (hno r hrd m s hx))⟩
    obtain ⟨hs', hf'⟩ := hfe r' hr' m' s' hx'
    have := e4 r' hr' _ (hf' hlt')
    rw [EReal.coe_le_coe_iff, neg_le_neg_iff] at this
    exact hent hs hs' this
  · push Not at hp
    have hf := maxent_fallback err done rest hrest (fun r' hr' w hw => by
      obtain ⟨m, s, hs, hx, -⟩ := hdone r' hr'
      exact absurd (hef r' hr' m s hx w hw).1 (not_lt.2 (hp r' hr' m s hx)))
    rw [h1] at hf
    cases done with
    | nil => simp at hf
    | cons r' done =>
      simp only [Except.ok.injEq] at hf
      subst hf
      obtain ⟨m, s, hs, hx, hval⟩ := hdone r (by simp)
      refine ⟨m, s, hs, hx, peak_candidate F o ho m s o1 o2 (by rw [← hx]; exact h2), by simp, ?_, fun _ => rfl⟩
      rintro ⟨r'', hr'', m'', s'', hx'', hlt⟩
      exact absurd hlt (not_lt.2 (hp r'' hr'' m'' s'' hx''))

/-! ### Which distribution passes the check with the largest scale -/

/-- moving the location by `d` changes the mass by less than `d` times the height of the peak -/
private theorem mass_shift {F : PeakFam} (hF : F.Ok) {s : ℝ} (hs : 0 < s) {l u : ℝ} (hlu : l < u) {m t : ℝ} (hne : m ≠ t) :
    massOf (F.pdf m s) l u < massOf (F.pdf t s) l u + |m - t| * F.pdf t s t := by
  have hg := peak_fam F hF
  have hpk : F.pdf t s t = F.pdf 0 1 0 / s := by rw [fam_moved F t hs, moved, sub_self, zero_div]
  have bound : ∀ a b : ℝ, a < b → ∫ x in a..b, F.pdf 0 1 x ≤ (b - a) * F.pdf 0 1 0 := by
    intro a b hab
    have h1 : ∫ x in a..b, F.pdf 0 1 x ≤ ∫ _ in a..b, F.pdf 0 1 0 := by
      refine intervalIntegral.integral_mono_on hab.le (ii hg a b) (by simp) fun x _ => ?_
      rcases lt_trichotomy x 0 with h | h | h
      · rw [← hg.even]; exact (hg.falls 0 _ le_rfl (by linarith)).le
      · rw [h]
      · exact (hg.falls 0 _ le_rfl h).le
    simpa using h1
  have pos : ∀ a b : ℝ, a < b → 0 < ∫ x in a..b, F.pdf 0 1 x := fun a b hab =>
    intervalIntegral.intervalIntegral_pos_of_pos (ii hg _ _) (peak_pos hg) hab
  rw [fmass_span hF m hs hlu.le, fmass_span hF t hs hlu.le, hpk]
  have e1 : (∫ x in ((l - m) / s)..((l - t) / s), F.pdf 0 1 x) + ∫ x in ((l - t) / s)..((u - m) / s), F.pdf 0 1 x =
      ∫ x in ((l - m) / s)..((u - m) / s), F.pdf 0 1 x :=
    intervalIntegral.integral_add_adjacent_intervals (ii hg _ _) (ii hg _ _)
  have e2 : (∫ x in ((l - t) / s)..((u - m) / s), F.pdf 0 1 x) + ∫ x in ((u - m) / s)..((u - t) / s), F.pdf 0 1 x =
      ∫ x in ((l - t) / s)..((u - t) / s), F.pdf 0 1 x :=
    intervalIntegral.integral_add_adjacent_intervals (ii hg _ _) (ii hg _ _)
  rcases lt_or_gt_of_ne hne with h | h
  · have d1 : (l - t) / s < (l - m) / s := div_lt_div_of_pos_right (by linarith) hs
    have d2 : (u - t) / s < (u - m) / s := div_lt_div_of_pos_right (by linarith) hs
    have p1 := pos _ _ d1
    have b2 := bound _ _ d2
    rw [abs_of_neg (by linarith : m - t < 0)]
    have e3 : ((u - m) / s - (u - t) / s) * F.pdf 0 1 0 = -(m - t) * (F.pdf 0 1 0 / s) := by field_simp; ring
    have q1 := intervalIntegral.integral_symm (μ := volume) (f := F.pdf 0 1) ((l - t) / s) ((l - m) / s)
    have q2 := intervalIntegral.integral_symm (μ := volume) (f := F.pdf 0 1) ((u - t) / s) ((u - m) / s)
    have q3 := intervalIntegral.integral_symm (μ := volume) (f := F.pdf 0 1) ((l - t) / s) ((u - m) / s)
    have q4 := intervalIntegral.integral_symm (μ := volume) (f := F.pdf 0 1) ((l - m) / s) ((u - m) / s)
    have q5 := intervalIntegral.integral_symm (μ := volume) (f := F.pdf 0 1) ((l - t) / s) ((u - t) / s)
    linarith
  · have d1 : (l - m) / s < (l - t) / s := div_lt_div_of_pos_right (by linarith) hs
    have d2 : (u - m) / s < (u - t) / s := div_lt_div_of_pos_right (by linarith) hs
    have b1 := bound _ _ d1
    have p2 := pos _ _ d2
    rw [abs_of_pos (by linarith : 0 < m - t)]
    have e3 : ((l - t) / s - (l - m) / s) * F.pdf 0 1 0 = (m - t) * (F.pdf 0 1 0 / s) := by field_simp; ring
    linarith

/-- with the location inside the interval, the wider the less likely -/
private theorem mass_wider {F : PeakFam} (hF : F.Ok) {l u t : ℝ} (hl : l ≤ t) (hu : t ≤ u) (hlu : l < u) {s s' : ℝ} (hs : 0 < s)
    (h : s < s') : massOf (F.pdf t s') l u < massOf (F.pdf t s) l u := by
  have e : ∀ s, 0 < s → massOf (F.pdf t s) l u = ∫ x in (-(t - l) * (1 / s))..((u - t) * (1 / s)), F.pdf 0 1 x := by
    intro s hs
    rw [fmass_span hF t hs hlu.le]
    congr 1 <;> ring
  rw [e s hs, e s' (hs.trans h)]
  exact span_mono (peak_fam F hF) (by linarith) (by linarith) (by linarith) (one_div_lt_one_div_of_lt hs h)

/-- **C119**: a target at the centre of the interval.  Of the distributions that pass the check exactly the one with the target
as its location and with the mass asked for has the largest scale, and no other has it.
Partial: the target is the centre of the interval. -/
theorem fixed_stat_centre_partial (F : PeakFam) (hF : F.Ok) (l u p s : ℝ) (hlu : l < u) (hs : 0 < s)
    (hm : massOf (F.pdf ((l + u) / 2) s) l u = p) (m' s' : ℝ) (hs' : 0 < s')
    (hpass : massOf (F.pdf m' s') l u - p - |m' - (l + u) / 2| = 0) :
    s' ≤ s ∧ (s' = s → m' = (l + u) / 2) := by
  have hg := peak_fam F hF
  have h1 : massOf (F.pdf m' s') l u ≤ massOf (F.pdf ((l + u) / 2) s') l u := by
    rw [fmass hF m' hs' hlu.le, fmass hF _ hs' hlu.le, sub_self, zero_div]
    exact around_le hg _ (by have := sub_pos.2 hlu; positivity)
  have h2 := abs_nonneg (m' - (l + u) / 2)
  constructor
  · by_contra hc
    have := mass_wider hF (by linarith : l ≤ (l + u) / 2) (by linarith) hlu hs (not_le.1 hc)
    linarith
  · rintro rfl
    have : |m' - (l + u) / 2| = 0 := by linarith
    rw [abs_eq_zero] at this
    linarith

/-- **C119**: a target inside the interval, and the density of the distribution asked for is nowhere above one.  Then of the
distributions that pass the check exactly it has the largest scale, and no other has it.
Partial: the height of the density has a unit, so whether the request is met depends on the units (`fixed_stat_units`). -/
theorem fixed_stat_flat_partial (F : PeakFam) (hF : F.Ok) (l u p t s : ℝ) (hlu : l < u) (hl : l ≤ t) (hu : t ≤ u) (hs : 0 < s)
    (hm : massOf (F.pdf t s) l u = p) (hflat : F.pdf t s t ≤ 1) (m' s' : ℝ) (hs' : 0 < s')
    (hpass : massOf (F.pdf m' s') l u - p - |m' - t| = 0) :
    s' ≤ s ∧ (s' = s → m' = t) := by
  have hpk : ∀ s, 0 < s → F.pdf t s t = F.pdf 0 1 0 / s := fun s hs => by rw [fam_moved F t hs, moved, sub_self, zero_div]
  have key : s ≤ s' → m' ≠ t → False := by
    intro hss hne
    have h1 := mass_shift hF hs' hlu hne
    have h2 : massOf (F.pdf t s') l u ≤ massOf (F.pdf t s) l u := by
      rcases hss.lt_or_eq with h | h
      · exact (mass_wider hF hl hu hlu hs h).le
      · rw [h]
    have h3 : F.pdf t s' t ≤ 1 := by
      refine le_trans ?_ hflat
      rw [hpk s hs, hpk s' hs']
      exact div_le_div_of_nonneg_left ((peak_fam F hF).nonneg 0) hs hss
    have h4 : |m' - t| * F.pdf t s' t ≤ |m' - t| := mul_le_of_le_one_right (abs_nonneg _) h3
    linarith
  constructor
  · by_contra hc
    have hss := not_le.1 hc
    by_cases hne : m' = t
    · subst hne
      have := mass_wider hF hl hu hlu hs hss
      rw [sub_self, abs_zero] at hpass
      linarith
    · exact key hss.le hne
  · rintro rfl
    by_contra hne
    exact key le_rfl hne

/-- **C119**: a target that is not the centre of the interval.  In units that are large enough (bounds and target are small
numbers) a distribution located at the centre of the interval passes the check exactly and has a larger scale than the one
asked for; its mass is so near the one asked for that no warning is given. -/
theorem fixed_stat_units (F : PeakFam) (hF : F.Ok) (l u p t s : ℝ) (hlu : l < u) (ht : t ≠ (l + u) / 2) (hs : 0 < s)
    (hm : massOf (F.pdf t s) l u = p) (hp : 0 < p) :
    ∃ w₀, 0 < w₀ ∧ ∀ w, 0 < w → w < w₀ →
      massOf (F.pdf (t * w) (s * w)) (l * w) (u * w) = p ∧
      ∃ s', s * w < s' ∧
        massOf (F.pdf ((l + u) / 2 * w) s') (l * w) (u * w) - p - |(l + u) / 2 * w - t * w| = 0 ∧
        ∀ b : Base, b.discrete = false → b.law = ofPdf (F.pdf ((l + u) / 2 * w) s') →
          Warnings.maxentWarns b (l * w) (u * w) p = false := by
  have hg := peak_fam F hF
  have hul := sub_pos.2 hlu
  have scale : ∀ m s w, 0 < s → 0 < w → massOf (F.pdf (m * w) (s * w)) (l * w) (u * w) = massOf (F.pdf m s) l u := by
    intro m s w hs hw
    rw [fmass hF m hs hlu.le, fmass hF (m * w) (mul_pos hs hw) (by nlinarith)]
    congr 1 <;> field_simp
  have hlt : p < around (F.pdf 0 1) 0 ((u - l) / (2 * s)) := by
    rw [← hm, fmass hF t hs hlu.le]
    exact around_lt hg (by positivity) (div_ne_zero (sub_ne_zero.2 (Ne.symm ht)) hs.ne')
  set d := |(l + u) / 2 - t| with hd
  have d0 : 0 < d := abs_pos.2 (sub_ne_zero.2 (Ne.symm ht))
  set top := around (F.pdf 0 1) 0 ((u - l) / (2 * s)) with htop
  refine ⟨min ((top - p) / d) (p / (10000 * d)), lt_min (div_pos (by linarith) d0) (by positivity), fun w hw hw' => ?_⟩
  have w1 : w * d < top - p := (lt_div_iff₀ d0).1 (hw'.trans_le (min_le_left _ _))
  have w2 : w * d < p / 10000 := by
    have := hw'.trans_le (min_le_right _ _)
    rw [lt_div_iff₀ (by positivity)] at this
    linarith
  refine ⟨by rw [scale t s w hs hw, hm], ?_⟩
  have wd : 0 < w * d := mul_pos hw d0
  obtain ⟨h, h0, he⟩ := around_exists hg (p := p + w * d) (by linarith)
    (by linarith [around_lt_one hg ((u - l) / (2 * s))])
  have hh : h < (u - l) / (2 * s) := by
    rw [← (around_mono hg 0).lt_iff_lt, he, ← htop]; linarith
  have hs1 : s < (u - l) / (2 * h) := by
    rw [lt_div_iff₀ (by positivity)] at hh ⊢
    linarith
  have s0 : 0 < (u - l) / (2 * h) := by positivity
  have hmass : massOf (F.pdf ((l + u) / 2 * w) ((u - l) / (2 * h) * w)) (l * w) (u * w) = p + w * d := by
    rw [scale _ _ w s0 hw, fmass hF _ s0 hlu.le, sub_self, zero_div, ← he]
    congr 1
    field_simp
  have habs : |(l + u) / 2 * w - t * w| = w * d := by
    rw [← sub_mul, abs_mul, abs_of_pos hw, hd, mul_comm]
  refine ⟨(u - l) / (2 * h) * w, by gcongr, by rw [hmass, habs]; ring, fun b b1 b2 => ?_⟩
  have hc := constraint_is_mass b (l * w) (u * w) p (by nlinarith) (by simp [b1])
  unfold probBound at hc
  dsimp only at hc
  unfold Warnings.maxentWarns
  rw [decide_eq_false_iff_not, gt_iff_lt, not_lt]
  unfold Warnings.relativeError
  dsimp only
  rw [hc, b2]
  change |(massOf _ _ _ - p) / p * 100| ≤ _
  rw [hmass, add_sub_cancel_left, abs_of_pos (by positivity)]
  have : w * d / p ≤ 1 / 10000 := by rw [div_le_iff₀ hp]; linarith
  linarith

/-- **C119**: maxent in such units: if a completed run ended at the centred distribution of `fixed_stat_units`, the distribution
asked for is not returned, although a run may have ended there. -/
theorem fixed_stat_lost (F : PeakFam) (hF : F.Ok) (o : Obj) (ho : construct F.family F.given = .ok o)
    (b : ℝ → ℝ → Base) (hb : ∀ m s, 0 < s → (b m s).discrete = false ∧ (b m s).law = ofPdf (F.pdf m s))
    (l u p t s m' s' : ℝ) (hlu : l < u) (hss : s < s')
    (hpass : massOf (F.pdf m' s') l u - p - |m' - t| = 0)
    (err : List ℝ → Option ℝ) (herr : ∀ m s, 0 < s → err [m, s] = some |probBound (b m s) l u p (some (m - t))|)
    (done : List Opt) (rest : List (Except Err Opt)) (hrest : ∀ r, rest.head? = some r → ∃ e, r = .error e)
    (hdone : ∀ r ∈ done, ∃ m s, 0 < s ∧ r.x = [m, s] ∧ r.value = some ((-entropyOf (F.pdf m s) : ℝ) : EReal))
    (hrun : ∃ r ∈ done, r.x = [m', s'])
    (o1 o2 : Obj) (r : Opt)
    (h : optimizeMaxEnt F.family o.names (getFixedParams o).1 (getFixedParams o).2 err (done.map .ok ++ rest) o1 =
      .ok (r, o2)) :
    law F.family o2 ≠ F.values t s := by
  obtain ⟨m, s1, -, -, hl, -, h1, -⟩ := maxent_fixed_stat F hF o ho b hb l u p t hlu err herr done rest hrest hdone o1 o2 r h
  obtain ⟨r', hr', hx'⟩ := hrun
  have hz : |massOf (F.pdf m' s') l u - (p + |m' - t|)| < 1 / 10000 := by rw [← sub_sub, hpass, abs_zero]; norm_num
  have := (h1 ⟨r', hr', m', s', hx', hz⟩).2 r' hr' m' s' hx' hz
  rw [hl]
  intro he
  have : s1 = s := by
    cases F <;> simp [PeakFam.values] at he <;> exact he.2
  linarith

/-- **C119**: a target outside the interval and a mass of one half or more: no distribution meets the request, and yet, if the
target is close enough in the units used, some pass the check exactly. -/
theorem fixed_stat_outside (F : PeakFam) (hF : F.Ok) (l u p t : ℝ) (hlu : l < u) (ht : t ≤ l) (hp : 1 / 2 ≤ p) :
    (∀ s, 0 < s → massOf (F.pdf t s) l u < p) ∧
    (l - t < 1 - p → ∃ m s, 0 < s ∧ l < m ∧ massOf (F.pdf m s) l u - p - |m - t| = 0) := by
  have hg := peak_fam F hF
  constructor
  · intro s hs
    refine lt_of_lt_of_le ?_ hp
    rw [fmass_span hF t hs hlu.le]
    have h1 : (∫ y in Set.Iic ((u - t) / s), F.pdf 0 1 y) - ∫ y in Set.Iic ((l - t) / s), F.pdf 0 1 y =
        ∫ x in ((l - t) / s)..((u - t) / s), F.pdf 0 1 x :=
      intervalIntegral.integral_Iic_sub_Iic hg.int.integrableOn hg.int.integrableOn
    rw [← h1]
    change upTo (F.pdf 0 1) _ - upTo (F.pdf 0 1) _ < _
    have a1 : 1 / 2 ≤ upTo (F.pdf 0 1) ((l - t) / s) := by
      rw [← upTo_zero hg]
      exact (upTo_mono hg).monotone (div_nonneg (by linarith) hs.le)
    have a2 : upTo (F.pdf 0 1) ((u - t) / s) < 1 := by
      rw [upTo_around hg]
      linarith [around_lt_one hg ((u - t) / s)]
    linarith
  · intro hc
    set m := min ((l + u) / 2) (l + (1 - p - (l - t)) / 2) with hmdef
    have m1 : l < m := lt_min (by linarith) (by linarith)
    have m2 : m < u := (min_le_left _ _).trans_lt (by linarith)
    have m3 : m ≤ l + (1 - p - (l - t)) / 2 := min_le_right _ _
    obtain ⟨s, hs, he, -⟩ := fixed_location_one F hF l u (p + (m - t)) m m1 m2 (by linarith) (by linarith)
    exact ⟨m, s, hs, m1, by rw [he, abs_of_pos (by linarith)]; ring⟩

/-- **C119**: a target so far below the interval that no distribution passes the check: maxent returns the distribution of the
first completed run. -/
theorem fixed_stat_far (F : PeakFam) (hF : F.Ok) (l u p t m s : ℝ) (hlu : l < u) (hp : 1 / 2 + 1 / 10000 ≤ p) (hp1 : p ≤ 1)
    (ht : 1 - p + 1 / 10000 ≤ l - t) (hs : 0 < s) : massOf (F.pdf m s) l u - p - |m - t| ≤ -(1 / 10000) := by
  have hg := peak_fam F hF
  rcases le_total m l with h | h
  · have := (fixed_stat_outside F hF l u (1 / 2) m hlu h le_rfl).1 s hs
    linarith [abs_nonneg (m - t)]
  · have := mass_one_unmet F hF l u m s hlu hs
    rw [abs_of_nonneg (by linarith)]
    linarith

/-! The hypotheses are met. -/

/-- a Normal with standard deviation 1, located at 1, and the interval from 0 to 4 -/
example : ∃ p, massOf (PeakFam.normal.pdf 1 1) 0 4 = p ∧ PeakFam.normal.pdf 1 1 1 ≤ 1 ∧ 0 < p := by
  refine ⟨_, rfl, ?_, ?_⟩
  · simp only [PeakFam.pdf, normalPdf, sub_self]
    have h1 : 1 ≤ √(2 * Real.pi) := by
      rw [Real.one_le_sqrt]
      have := Real.two_le_pi
      linarith
    have h2 : 1 / √(2 * Real.pi) ≤ 1 := by rw [div_le_one (by linarith)]; exact h1
    simpa using h2
  · rw [fmass_span (F := .normal) trivial 1 one_pos (by norm_num)]
    have hg := peak_fam PeakFam.normal trivial
    exact intervalIntegral.intervalIntegral_pos_of_pos (ii hg _ _) (peak_pos hg) (by norm_num)

/-- `maxent(Normal(), 0, 4 * w, mass, fixed_stat=("mean", w))` in small units: one run ends at the distribution asked for, the
other at a wider one with the mean `2 * w`; the latter is returned -/
example : ∃ (p w s s' : ℝ) (o o2 : Obj) (r : Opt) (err : List ℝ → Option ℝ) (done : List Opt), 0 < w ∧ 0 < s ∧ s < s' ∧
    massOf (PeakFam.normal.pdf w s) 0 (4 * w) = p ∧
    massOf (PeakFam.normal.pdf (2 * w) s') 0 (4 * w) - p - |2 * w - w| = 0 ∧
    construct .normal PeakFam.normal.given = .ok o ∧
    (∀ m s, 0 < s → (peakBase .normal trivial m s).discrete = false ∧
      (peakBase .normal trivial m s).law = ofPdf (PeakFam.normal.pdf m s)) ∧
    (∀ m s, 0 < s → err [m, s] = some |probBound (peakBase .normal trivial m s) 0 (4 * w) p (some (m - w))|) ∧
    (∀ r ∈ done, ∃ m s, 0 < s ∧ r.x = [m, s] ∧ r.value = some ((-entropyOf (PeakFam.normal.pdf m s) : ℝ) : EReal)) ∧
    done.map (fun r => r.x) = [[w, s], [2 * w, s']] ∧
    optimizeMaxEnt .normal o.names (getFixedParams o).1 (getFixedParams o).2 err (done.map .ok ++ [.error .valueError]) o =
      .ok (r, o2) ∧ r.x = [2 * w, s'] := by
  have p0 : 0 < massOf (PeakFam.normal.pdf 1 1) 0 4 := by
    rw [fmass_span (F := .normal) trivial 1 one_pos (by norm_num)]
    have hg := peak_fam PeakFam.normal trivial
    exact intervalIntegral.intervalIntegral_pos_of_pos (ii hg _ _) (peak_pos hg) (by norm_num)
  obtain ⟨w₀, hw₀, hw⟩ := fixed_stat_units .normal trivial 0 4 _ 1 1 (by norm_num) (by norm_num) one_pos rfl p0
  obtain ⟨h1, s', hs', h2, -⟩ := hw (w₀ / 2) (by linarith) (by linarith)
  set w := w₀ / 2 with hwd
  have w0 : 0 < w := by linarith
  set p := massOf (PeakFam.normal.pdf 1 1) 0 4 with hp
  rw [one_mul, zero_mul] at h1
  rw [zero_mul, one_mul, show ((0 : ℝ) + 4) / 2 = 2 by norm_num] at h2
  rw [one_mul] at hs'
  have s0 : 0 < s' := w0.trans hs'
  have hbase : ∀ m s, 0 < s → (peakBase .normal trivial m s).discrete = false ∧
      (peakBase .normal trivial m s).law = ofPdf (PeakFam.normal.pdf m s) := by
    intro m s hs
    unfold peakBase
    rw [dif_pos hs]
    exact ⟨rfl, rfl⟩
  set val : ℝ → ℝ → Option EReal := fun m s => some ((-entropyOf (PeakFam.normal.pdf m s) : ℝ) : EReal) with hval
  set err : List ℝ → Option ℝ := fun x => match x with
    | [m, s] => some |probBound (peakBase .normal trivial m s) 0 (4 * w) p (some (m - w))|
    | _ => none with herr
  obtain ⟨o, ho⟩ : ∃ o, construct .normal PeakFam.normal.given = .ok o := ⟨_, rfl⟩
  have hap : ∀ m s, ∃ o2, applyCandidate .normal o.names (getFixedParams o).1 (getFixedParams o).2 [m, s] o = .ok o2 := by
    intro m s
    simp [construct, PeakFam.given, parametrize, normalParam, allNotNone, Except.ok_bind', Except.pure_eq, Obj.setAll,
      Obj.set, blank] at ho
    subst ho
    simp [applyCandidate, getFixedParams, splitStep, getParams, getParamsFrom, Function.update, Except.map, Except.ok_bind',
      parametrize, kwCall, List.lookup, normalParam, allNotNone, Except.pure_eq, List.zipIdx]
  have hdone : ∀ r ∈ ([⟨[w, w], val w w⟩, ⟨[2 * w, s'], val (2 * w) s'⟩] : List Opt), ∃ m s, 0 < s ∧ r.x = [m, s] ∧
      r.value = some ((-entropyOf (PeakFam.normal.pdf m s) : ℝ) : EReal) := by
    intro r hr
    simp only [List.mem_cons, List.not_mem_nil, or_false] at hr
    rcases hr with rfl | rfl
    · exact ⟨_, _, w0, rfl, rfl⟩
    · exact ⟨_, _, s0, rfl, rfl⟩
  have fe : Feasible err ⟨[2 * w, s'], val (2 * w) s'⟩ ((-entropyOf (PeakFam.normal.pdf (2 * w) s') : ℝ) : EReal) := by
    refine ⟨⟨0, ?_, by norm_num⟩, rfl⟩
    simp only [herr]
    rw [stat_bound (by linarith) (hbase _ _ s0), h2, abs_zero]
  obtain ⟨i, r, v, e1, e2, -⟩ := maxent_selects err [⟨[w, w], val w w⟩, ⟨[2 * w, s'], val (2 * w) s'⟩] [.error .valueError]
    (by simp) _ (by simp) _ fe (EReal.coe_ne_top _)
  have hr := List.mem_of_getElem? e2
  obtain ⟨o2, ho2⟩ : ∃ o2, applyCandidate .normal o.names (getFixedParams o).1 (getFixedParams o).2 r.x o = .ok o2 := by
    obtain ⟨m, s, -, hx, -⟩ := hdone r hr
    rw [hx]; exact hap m s
  have hrun : optimizeMaxEnt .normal o.names (getFixedParams o).1 (getFixedParams o).2 err
      ([⟨[w, w], val w w⟩, ⟨[2 * w, s'], val (2 * w) s'⟩].map .ok ++ [.error .valueError]) o = .ok (r, o2) := by
    unfold optimizeMaxEnt
    rw [e1]
    simp only [Except.ok_bind']
    rw [ho2]
    rfl
  refine ⟨p, w, w, s', o, o2, r, err, _, w0, w0, hs', h1, h2, ho, hbase, fun m s _ => rfl, hdone, rfl, hrun, ?_⟩
  have hlost := fixed_stat_lost .normal trivial o ho (peakBase .normal trivial) hbase 0 (4 * w) p w w (2 * w) s' (by linarith) hs'
    h2 err (fun m s _ => rfl) _ _ (by simp) hdone ⟨⟨[2 * w, s'], val (2 * w) s'⟩, by simp, rfl⟩ o o2 r hrun
  obtain ⟨m, s, -, hx, hl, -⟩ := maxent_fixed_stat .normal trivial o ho (peakBase .normal trivial) hbase 0 (4 * w) p w
    (by linarith) err (fun m s _ => rfl) _ _ (by simp) hdone o o2 r hrun
  simp only [List.mem_cons, List.not_mem_nil, or_false] at hr
  rcases hr with rfl | rfl
  · simp only [List.cons.injEq, and_true] at hx
    obtain ⟨rfl, rfl⟩ := hx
    exact absurd hl hlost
  · rfl

end Verif.Props
