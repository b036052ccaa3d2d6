import Verif.Lemmas.PositiveGiven
import Verif.Props.PeakGiven
import Verif.Props.ShiftGiven
import Verif.Props.HalfScale
import Verif.Props.LogScale
import Verif.Props.ParetoBest

/-!
# C135: maxent for positive families with one parameter given
-/

namespace Verif.Props
open MeasureTheory Verif Verif.Spec Verif.Param Verif.Optim Verif.NumFit Verif.Modifier Verif.LocScale Verif.Lemmas.MaxentHdi
open Verif.ShiftGiven Verif.PositiveGiven Filter Topology

/-- **C135**: of two distributions with the same given parameter the wider one has the larger entropy. -/
theorem positive_entropy (F : PosGiven) (hF : F.Ok) (v v' : ℝ) (hv : F.Free v) (hv' : F.Free v') :
    entropyOf (F.pdf v) < entropyOf (F.pdf v') ↔ F.width v < F.width v' := width_ent F hF v v' hv hv'

/-- **C135**: shape given: the mass depends on the interval only in units of the width. -/
theorem stretch_units (F : PosGiven) (hF : F.Ok) (hs : F.Stretches) (v v' k l u : ℝ) (hv : F.Free v) (hv' : F.Free v')
    (hk : 0 < k) (hw : F.width v' = k * F.width v) (hl : 0 ≤ l) (h : l < u) :
    massOf (F.pdf v') (k * l) (k * u) = massOf (F.pdf v) l u := by
  have w0 := width_pos F v hv
  have hu : 0 < u := lt_of_le_of_lt hl h
  have e : ∀ x, 0 < x → Real.log (k * x) - Real.log (k * F.width v) = Real.log x - Real.log (F.width v) := by
    intro x hx
    rw [Real.log_mul hk.ne' hx.ne', Real.log_mul hk.ne' w0.ne']; ring
  rcases hl.lt_or_eq with hl | rfl
  · rw [stretch_mass F hF hs v' hv' (by positivity) (by gcongr), stretch_mass F hF hs v hv hl h.le, hw, e l hl, e u hu]
  · rw [mul_zero, stretch_mass_zero F hF hs v' hv' (by positivity), stretch_mass_zero F hF hs v hv hu, hw, e u hu]

/-- **C135**: shape given, an interval that starts at zero: every mass below one is that of exactly one distribution. -/
theorem stretch_from_zero (F : PosGiven) (hF : F.Ok) (hs : F.Stretches) (u p : ℝ) (hu : 0 < u) (h0 : 0 < p) (h1 : p < 1) :
    ∃ v, F.Free v ∧ ∀ v', F.Free v' → (massOf (F.pdf v') 0 u = p ↔ v' = v) := by
  obtain ⟨k, hg⟩ := logd_hump F hF hs
  obtain ⟨x, hx⟩ := mem_range_of_exists_le_of_exists_ge (up_cont hg)
    (((up_bot hg).eventually (gt_mem_nhds h0)).exists.imp fun _ h => h.le)
    (((up_top hg).eventually (lt_mem_nhds h1)).exists.imp fun _ h => h.le)
  obtain ⟨v, hv, hw⟩ := width_surj F (Real.exp_pos (Real.log u - x))
  refine ⟨v, hv, fun v' hv' => ?_⟩
  rw [stretch_mass_zero F hF hs v' hv' hu, ← hx, (up_mono hg).injective.eq_iff]
  constructor
  · intro h
    refine width_inj F _ _ hv' hv ?_
    rw [hw, ← h, sub_sub_cancel, Real.exp_log (width_pos F v' hv')]
  · rintro rfl
    rw [hw, Real.log_exp, sub_sub_cancel]

private theorem stretch_slide (F : PosGiven) (hF : F.Ok) (hs : F.Stretches) {l u : ℝ} (hl : 0 < l) (h : l ≤ u) (v : ℝ)
    (hv : F.Free v) : massOf (F.pdf v) l u = area (logd F) (Real.log l - Real.log (F.width v))
      (Real.log l - Real.log (F.width v) + (Real.log u - Real.log l)) := by
  rw [stretch_mass F hF hs v hv hl h]
  congr 1
  ring

/-- **C135**: shape given, an interval that starts above zero: there is a largest attainable mass, below one and reached by one
distribution only; every smaller mass is that of exactly two, and the wider one has the larger entropy. -/
theorem stretch_two (F : PosGiven) (hF : F.Ok) (hs : F.Stretches) (l u : ℝ) (hl : 0 < l) (h : l < u) :
    ∃ v₀ top, F.Free v₀ ∧ 0 < top ∧ top < 1 ∧ massOf (F.pdf v₀) l u = top ∧
      (∀ v, F.Free v → v ≠ v₀ → massOf (F.pdf v) l u < top) ∧
      ∀ p, 0 < p → p < top → ∃ v₁ v₂, F.Free v₁ ∧ F.Free v₂ ∧ F.width v₁ < F.width v₀ ∧ F.width v₀ < F.width v₂ ∧
        (∀ v, F.Free v → (massOf (F.pdf v) l u = p ↔ v = v₁ ∨ v = v₂)) ∧ entropyOf (F.pdf v₁) < entropyOf (F.pdf v₂) := by
  obtain ⟨k, hg⟩ := logd_hump F hF hs
  have hL : 0 < Real.log u - Real.log l := sub_pos.2 (Real.log_lt_log hl h)
  obtain ⟨w₀, -, hmax, htwo⟩ := slide_two hg hL
  have at_ : ∀ w v, F.width v = Real.exp (Real.log l - w) → Real.log l - Real.log (F.width v) = w := by
    intro w v e
    rw [e, Real.log_exp, sub_sub_cancel]
  have back : ∀ w v v', F.Free v → F.Free v' → F.width v = Real.exp (Real.log l - w) → 
      Real.log l - Real.log (F.width v') = w → v' = v := by
    intro w v v' hv hv' e e'
    refine width_inj F _ _ hv' hv ?_
    rw [e, ← e', sub_sub_cancel, Real.exp_log (width_pos F v' hv')]
  obtain ⟨v₀, hv₀, e₀⟩ := width_surj F (Real.exp_pos (Real.log l - w₀))
  refine ⟨v₀, area (logd F) w₀ (w₀ + (Real.log u - Real.log l)), hv₀, area_pos hg (by linarith), area_lt_one hg (by linarith), ?_,
    fun v hv hne => ?_, fun p hp ht => ?_⟩
  · rw [stretch_slide F hF hs hl h.le v₀ hv₀, at_ _ _ e₀]
  · rw [stretch_slide F hF hs hl h.le v hv]
    exact hmax _ fun e => hne (back _ _ _ hv₀ hv e₀ e)
  · obtain ⟨w₁, w₂, h1, h2, hsol⟩ := htwo p hp ht
    obtain ⟨v₁, hv₁, e₁⟩ := width_surj F (Real.exp_pos (Real.log l - w₂))
    obtain ⟨v₂, hv₂, e₂⟩ := width_surj F (Real.exp_pos (Real.log l - w₁))
    have l1 : F.width v₁ < F.width v₀ := by rw [e₁, e₀]; exact Real.exp_lt_exp.2 (by linarith)
    have l2 : F.width v₀ < F.width v₂ := by rw [e₂, e₀]; exact Real.exp_lt_exp.2 (by linarith)
    refine ⟨v₁, v₂, hv₁, hv₂, l1, l2, fun v hv => ?_, (width_ent F hF _ _ hv₁ hv₂).2 (l1.trans l2)⟩
    rw [stretch_slide F hF hs hl h.le v hv, hsol, or_comm]
    constructor
    · rintro (e | e)
      · exact .inl (back _ _ _ hv₁ hv e₁ e)
      · exact .inr (back _ _ _ hv₂ hv e₂ e)
    · rintro (rfl | rfl)
      · exact .inl (at_ _ _ e₁)
      · exact .inr (at_ _ _ e₂)

private theorem stretch_at (F : PosGiven) (hF : F.Ok) (hs : F.Stretches) {l u : ℝ} (hl : 0 < l) (h : l < u) (v₀ : ℝ)
    (hv₀ : F.Free v₀)
    (e : logd F (Real.log l - Real.log (F.width v₀)) = logd F (Real.log u - Real.log (F.width v₀))) (v : ℝ) (hv : F.Free v)
    (hne : v ≠ v₀) : massOf (F.pdf v) l u < massOf (F.pdf v₀) l u := by
  obtain ⟨k, hg⟩ := logd_hump F hF hs
  have hL := Real.log_lt_log hl h
  rw [stretch_mass F hF hs v₀ hv₀ hl h.le, stretch_slide F hF hs hl h.le v hv]
  have := equal_best hg (a := Real.log l - Real.log (F.width v₀)) (b := Real.log u - Real.log (F.width v₀)) (by linarith) e
    (c := Real.log l - Real.log (F.width v)) (fun e' => hne (width_inj F _ _ hv hv₀ (Real.log_injOn_pos (width_pos F v hv)
      (width_pos F v₀ hv₀) (by linarith))))
  rwa [show Real.log u - Real.log (F.width v₀) - (Real.log l - Real.log (F.width v₀)) = Real.log u - Real.log l by ring] at this

/-- **C135**: the distribution with the largest mass, for every family. -/
theorem stretch_peak (l u c : ℝ) (hl : 0 < l) (h : l < u) (hc : 0 < c) :
    (∀ v, 0 < v → v ≠ ((u ^ c - l ^ c) / (c * Real.log (u / l))) ^ (1 / c) →
      massOf (weibullPdf c v) l u < massOf (weibullPdf c (((u ^ c - l ^ c) / (c * Real.log (u / l))) ^ (1 / c))) l u) ∧
    (∀ v, 0 < v → v ≠ c * Real.log (u / l) / (u - l) →
      massOf (gammaPdf c v) l u < massOf (gammaPdf c (c * Real.log (u / l) / (u - l))) l u) ∧
    (∀ v, 0 < v → v ≠ c * Real.log (u / l) / (1 / l - 1 / u) →
      massOf (inverseGammaPdf c v) l u < massOf (inverseGammaPdf c (c * Real.log (u / l) / (1 / l - 1 / u))) l u) ∧
    (∀ v, v ≠ Real.log √(l * u) → massOf (LogFam.logNormal.pdf v c) l u < massOf (LogFam.logNormal.pdf (Real.log √(l * u)) c) l u) ∧
    (∀ v, 0 < v → v ≠ √(l * u) → massOf (logLogisticPdf v c) l u < massOf (logLogisticPdf √(l * u) c) l u) := by
  have hu := hl.trans h
  have hul := sub_pos.2 h
  have hq : 0 < Real.log (u / l) := Real.log_pos (by rw [lt_div_iff₀ hl]; linarith)
  have hq' : Real.log (u / l) = Real.log u - Real.log l := Real.log_div hu.ne' hl.ne'
  have hr : 0 < u ^ c - l ^ c := sub_pos.2 (Real.rpow_lt_rpow hl.le h hc)
  have hi : 0 < 1 / l - 1 / u := sub_pos.2 (one_div_lt_one_div_of_lt hl h)
  have hm : Real.log √(l * u) = (Real.log l + Real.log u) / 2 := by
    rw [Real.log_sqrt (by positivity), Real.log_mul hl.ne' hu.ne']
  have hsq : 0 < √(l * u) := Real.sqrt_pos.2 (by positivity)
  refine ⟨?_, ?_, ?_, ?_, ?_⟩
  · have h0 : 0 < ((u ^ c - l ^ c) / (c * Real.log (u / l))) ^ (1 / c) := Real.rpow_pos_of_pos (by positivity) _
    refine stretch_at (.weibullAlpha c) hc trivial hl h _ h0 ?_
    set w := ((u ^ c - l ^ c) / (c * Real.log (u / l))) ^ (1 / c) with hw
    have hwc : w ^ c = (u ^ c - l ^ c) / (c * Real.log (u / l)) := by
      rw [hw, ← Real.rpow_mul (by positivity), one_div_mul_cancel hc.ne', Real.rpow_one]
    have ex : ∀ x, 0 < x → Real.exp (-((-(Real.log x - Real.log w) - 0) / (1 / c))) = x ^ c / w ^ c := by
      intro x hx
      rw [← Real.div_rpow hx.le h0.le, Real.rpow_def_of_pos (by positivity), Real.log_div hx.ne' h0.ne']
      congr 1
      field_simp
      ring
    simp only [logd, moved, lg, PosGiven.width]
    rw [ex l hl, ex u hu]
    congr 1
    rw [mul_assoc, mul_assoc, ← Real.exp_add, ← Real.exp_add]
    congr 2
    rw [hwc, hq']
    rw [hq'] at hq
    field_simp
    ring
  · have h0 : 0 < c * Real.log (u / l) / (u - l) := by positivity
    refine stretch_at (.gammaAlpha c) hc trivial hl h _ h0 ?_
    set w := c * Real.log (u / l) / (u - l) with hw
    have ex : ∀ x, 0 < x → Real.exp (- -(Real.log x - Real.log (1 / w))) = w * x := by
      intro x hx
      rw [neg_neg, one_div, Real.log_inv, sub_neg_eq_add, Real.exp_add, Real.exp_log hx, Real.exp_log h0, mul_comm]
    simp only [logd, lg, PosGiven.width]
    rw [ex l hl, ex u hu, mul_assoc, mul_assoc, ← Real.exp_add, ← Real.exp_add]
    congr 2
    have : w * (u - l) = c * (Real.log u - Real.log l) := by rw [hw, hq']; field_simp
    linarith
  · have h0 : 0 < c * Real.log (u / l) / (1 / l - 1 / u) := by positivity
    refine stretch_at (.inverseGammaAlpha c) hc trivial hl h _ h0 ?_
    set w := c * Real.log (u / l) / (1 / l - 1 / u) with hw
    have ex : ∀ x, 0 < x → Real.exp (-(Real.log x - Real.log w)) = w * (1 / x) := by
      intro x hx
      rw [neg_sub, Real.exp_sub, Real.exp_log hx, Real.exp_log h0]; ring
    simp only [logd, lg, PosGiven.width]
    rw [ex l hl, ex u hu, mul_assoc, mul_assoc, ← Real.exp_add, ← Real.exp_add]
    congr 2
    have : w * (1 / l - 1 / u) = c * (Real.log u - Real.log l) := by rw [hw, hq', div_mul_cancel₀ _ hi.ne']
    linarith
  · intro v hne
    refine stretch_at (.logNormalSigma c) hc trivial hl h _ trivial ?_ v trivial hne
    simp only [logd, PosGiven.width, Real.log_exp, hm, normalPdf]
    congr 3
    ring
  · refine stretch_at (.logLogisticBeta c) hc trivial hl h _ hsq ?_
    simp only [logd, PosGiven.width, hm]
    have ev : ∀ x, logisticPdf 0 1 (-x) = logisticPdf 0 1 x := (peak_fam .logistic trivial).even
    rw [show logisticPdf 0 (1 / c) = moved (logisticPdf 0 1) 0 (1 / c) from fam_moved .logistic 0 (one_div_pos.2 hc)]
    unfold moved
    rw [← ev]
    congr 2
    ring

/-! ### The median of LogNormal or LogLogistic given -/

private theorem log_as_peak (F : LogFam) (m : ℝ) {s : ℝ} (hs : 0 < s) {l u : ℝ} (hl : 0 < l) (h : l ≤ u) :
    massOf (F.pdf m s) l u = massOf ((Verif.LogScale.logOf F).pdf m s) (Real.log l) (Real.log u) := by
  rw [Verif.LogScale.log_mass F m hs hl h, fam_moved _ m hs,
    Verif.LogScale.mass_upTo (peak_fam _ (Verif.LogScale.logOf_ok F)) m hs (Real.log_le_log hl h)]
  rfl

/-- **C135**: the median `exp m` given inside the interval: every mass is that of exactly one distribution. -/
theorem log_median_inside (F : LogFam) (l u m p : ℝ) (hl : 0 < l) (h1 : l < Real.exp m) (h2 : Real.exp m < u) (h0 : 0 < p)
    (hp : p < 1) : ∃ s, 0 < s ∧ ∀ s', 0 < s' → (massOf (F.pdf m s') l u = p ↔ s' = s) := by
  have hu : 0 < u := (Real.exp_pos m).trans h2
  obtain ⟨s, hs, e⟩ := shift_location_inside (.peak (Verif.LogScale.logOf F)) (Verif.LogScale.logOf_ok F) (Real.log l) (Real.log u) m p
    ((Real.log_lt_iff_lt_exp hl).2 h1) ((Real.lt_log_iff_exp_lt hu).2 h2) h0 hp
  exact ⟨s, hs, fun s' hs' => by rw [log_as_peak F m hs' hl (h1.trans h2).le]; exact e s' hs'⟩

/-- **C135**: the median given at one end of the interval: the masses below one half are that of exactly one distribution each,
the others of none. -/
theorem log_median_end (F : LogFam) (l u m p : ℝ) (hl : 0 < l) (h : l < u) (hm : Real.exp m = l ∨ Real.exp m = u) (h0 : 0 < p) :
    (p < 1 / 2 → ∃ s, 0 < s ∧ ∀ s', 0 < s' → (massOf (F.pdf m s') l u = p ↔ s' = s)) ∧
    (1 / 2 ≤ p → ∀ s, 0 < s → massOf (F.pdf m s) l u ≠ p) := by
  obtain ⟨a, b⟩ := location_at_end (Verif.LogScale.logOf F) (Verif.LogScale.logOf_ok F) (Real.log l) (Real.log u) m p
    (Real.log_lt_log hl h) (by rcases hm with rfl | rfl <;> simp [Real.log_exp]) h0
  refine ⟨fun hp => ?_, fun hp s hs => by rw [log_as_peak F m hs hl h.le]; exact b hp s hs⟩
  obtain ⟨s, hs, e⟩ := a hp
  exact ⟨s, hs, fun s' hs' => by rw [log_as_peak F m hs' hl h.le]; exact e s' hs'⟩

/-- **C135**: the median given outside the interval: there is a largest mass, below one half and reached by one distribution;
every smaller one is that of exactly two, the wider with the larger entropy. -/
theorem log_median_outside (F : LogFam) (l u m : ℝ) (hl : 0 < l) (h : l < u) (hm : Real.exp m < l ∨ u < Real.exp m) :
    ∃ s₀ top, 0 < s₀ ∧ 0 < top ∧ top < 1 / 2 ∧ massOf (F.pdf m s₀) l u = top ∧
      (∀ s, 0 < s → s ≠ s₀ → massOf (F.pdf m s) l u < top) ∧
      ∀ p, 0 < p → p < top → ∃ s₁ s₂, 0 < s₁ ∧ s₁ < s₀ ∧ s₀ < s₂ ∧
        (∀ s, 0 < s → (massOf (F.pdf m s) l u = p ↔ s = s₁ ∨ s = s₂)) ∧ entropyOf (F.pdf m s₁) < entropyOf (F.pdf m s₂) := by
  have hu := hl.trans h
  obtain ⟨s₀, top, a, b, c, d, e, f⟩ := location_outside (Verif.LogScale.logOf F) (Verif.LogScale.logOf_ok F) (Real.log l) (Real.log u) m
    (Real.log_lt_log hl h) (hm.imp (Real.lt_log_iff_exp_lt hl).2 (Real.log_lt_iff_lt_exp hu).2)
  refine ⟨s₀, top, a, b, c, by rw [log_as_peak F m a hl h.le]; exact d,
    fun s hs hne => by rw [log_as_peak F m hs hl h.le]; exact e s hs hne, fun p h0 hp => ?_⟩
  obtain ⟨s₁, s₂, p1, p2, p3, p4, -⟩ := f p h0 hp
  have q1 := p1.trans (p2.trans p3)
  refine ⟨s₁, s₂, p1, p2, p3, fun s hs => by rw [log_as_peak F m hs hl h.le]; exact p4 s hs, ?_⟩
  rw [Verif.LogScale.log_entropy F m p1, Verif.LogScale.log_entropy F m q1]
  have := Real.log_lt_log p1 (p2.trans p3)
  linarith

/-- **C135**: the median given and an interval from zero to `u`.  With the median below `u` exactly the masses above one half are
attainable, with the median above `u` exactly those below it, each by one distribution; with the median at `u` the mass is one
half whatever the other parameter. -/
theorem log_median_zero (F : LogFam) (u m p : ℝ) (hu : 0 < u) (h0 : 0 < p) (hp : p < 1) :
    (Real.exp m < u → 1 / 2 < p → ∃ s, 0 < s ∧ ∀ s', 0 < s' → (massOf (F.pdf m s') 0 u = p ↔ s' = s)) ∧
    (Real.exp m < u → ∀ s, 0 < s → 1 / 2 < massOf (F.pdf m s) 0 u) ∧
    (u < Real.exp m → p < 1 / 2 → ∃ s, 0 < s ∧ ∀ s', 0 < s' → (massOf (F.pdf m s') 0 u = p ↔ s' = s)) ∧
    (u < Real.exp m → ∀ s, 0 < s → massOf (F.pdf m s) 0 u < 1 / 2) ∧
    (Real.exp m = u → ∀ s, 0 < s → massOf (F.pdf m s) 0 u = 1 / 2) := by
  have hg := peak_fam _ (Verif.LogScale.logOf_ok F)
  have mono := upTo_mono hg
  have z := upTo_zero hg
  have e : ∀ s, 0 < s → massOf (F.pdf m s) 0 u = upTo ((Verif.LogScale.logOf F).pdf 0 1) ((Real.log u - m) / s) :=
    fun s hs => Verif.LogScale.log_mass_zero F m hs hu
  have lt1 : Real.exp m < u ↔ 0 < Real.log u - m := by rw [← Real.lt_log_iff_exp_lt hu, sub_pos]
  have lt2 : u < Real.exp m ↔ Real.log u - m < 0 := by rw [← Real.log_lt_iff_lt_exp hu, sub_neg]
  obtain ⟨x, hx⟩ := upTo_exists hg h0 hp
  have sol : ∀ d : ℝ, 0 < d / x → ∀ s', 0 < s' → (upTo ((Verif.LogScale.logOf F).pdf 0 1) (d / s') = p ↔ s' = d / x) := by
    intro d hd s' hs'
    have hx0 : x ≠ 0 := by rintro rfl; simp at hd
    rw [← hx, mono.injective.eq_iff, div_eq_iff hs'.ne', eq_div_iff hx0]
    constructor <;> intro h <;> linarith
  refine ⟨fun h hp => ?_, fun h s hs => ?_, fun h hp => ?_, fun h s hs => ?_, fun h s hs => ?_⟩
  · have hx0 : 0 < x := by rw [← mono.lt_iff_lt, hx, z]; exact hp
    have hd : 0 < (Real.log u - m) / x := div_pos (lt1.1 h) hx0
    exact ⟨_, hd, fun s' hs' => by rw [e s' hs']; exact sol _ hd s' hs'⟩
  · rw [e s hs, ← z, mono.lt_iff_lt]
    exact div_pos (lt1.1 h) hs
  · have hx0 : x < 0 := by rw [← mono.lt_iff_lt, hx, z]; exact hp
    have hd : 0 < (Real.log u - m) / x := div_pos_of_neg_of_neg (lt2.1 h) hx0
    exact ⟨_, hd, fun s' hs' => by rw [e s' hs']; exact sol _ hd s' hs'⟩
  · rw [e s hs, ← z, mono.lt_iff_lt]
    exact div_neg_of_neg_of_pos (lt2.1 h) hs
  · rw [e s hs, ← h, Real.log_exp, sub_self, zero_div, z]

/-! ### Pareto -/

/-- **C135**: Pareto with `alpha` given: the largest mass `1 - (l / u) ^ alpha` is that of the distribution that starts at `l`;
every smaller mass is that of exactly two, one that starts below `l` and one that starts inside the interval, at
`u (1 - p) ^ (1 / alpha)`.  The latter has the larger entropy and gives no probability to the values from `l` to its start. -/
theorem pareto_alpha_given (a l u : ℝ) (ha : 0 < a) (hl : 0 < l) (h : l < u) :
    massOf (paretoPdf a l) l u = 1 - (l / u) ^ a ∧
    (∀ m, 0 < m → m ≠ l → massOf (paretoPdf a m) l u < 1 - (l / u) ^ a) ∧
    ∀ p, 0 < p → p < 1 - (l / u) ^ a →
      0 < (p / (1 / l ^ a - 1 / u ^ a)) ^ (1 / a) ∧ (p / (1 / l ^ a - 1 / u ^ a)) ^ (1 / a) < l ∧
      l < u * (1 - p) ^ (1 / a) ∧ u * (1 - p) ^ (1 / a) < u ∧
      (∀ m, 0 < m → (massOf (paretoPdf a m) l u = p ↔
        m = (p / (1 / l ^ a - 1 / u ^ a)) ^ (1 / a) ∨ m = u * (1 - p) ^ (1 / a))) ∧
      entropyOf (paretoPdf a ((p / (1 / l ^ a - 1 / u ^ a)) ^ (1 / a))) < entropyOf (paretoPdf a (u * (1 - p) ^ (1 / a))) ∧
      massOf (paretoPdf a (u * (1 - p) ^ (1 / a))) l (u * (1 - p) ^ (1 / a)) = 0 := by
  have hu := hl.trans h
  have la := Real.rpow_pos_of_pos hl a
  have ua := Real.rpow_pos_of_pos hu a
  have hlu : l ^ a < u ^ a := Real.rpow_lt_rpow hl.le h ha
  have hd : 0 < 1 / l ^ a - 1 / u ^ a := sub_pos.2 (one_div_lt_one_div_of_lt la hlu)
  have hinv : ∀ x : ℝ, 0 ≤ x → (x ^ (1 / a)) ^ a = x := fun x hx => by
    rw [← Real.rpow_mul hx, one_div_mul_cancel ha.ne', Real.rpow_one]
  have hinv' : ∀ x : ℝ, 0 ≤ x → (x ^ a) ^ (1 / a) = x := fun x hx => by
    rw [← Real.rpow_mul hx, mul_one_div_cancel ha.ne', Real.rpow_one]
  have low : ∀ m, 0 < m → m ≤ l → massOf (paretoPdf a m) l u = m ^ a * (1 / l ^ a - 1 / u ^ a) := by
    intro m hm hml
    rw [Verif.Lemmas.ParetoBest.mass ha hm h.le, if_neg (by linarith), if_neg (by linarith), Real.div_rpow hm.le hl.le,
      Real.div_rpow hm.le hu.le]
    ring
  have high : ∀ m, 0 < m → l ≤ m → m ≤ u → massOf (paretoPdf a m) l u = 1 - m ^ a / u ^ a := by
    intro m hm hlm hmu
    rcases hlm.lt_or_eq with hlm | rfl
    · rw [Verif.Lemmas.ParetoBest.mass ha hm h.le, if_neg (by linarith), if_pos hlm, Real.div_rpow hm.le hu.le]
    · rw [low l hl le_rfl]
      field_simp
  have out : ∀ m, 0 < m → u < m → massOf (paretoPdf a m) l u = 0 := by
    intro m hm hum
    rw [Verif.Lemmas.ParetoBest.mass ha hm h.le, if_pos hum]
  have etop : (l / u) ^ a = l ^ a / u ^ a := Real.div_rpow hl.le hu.le a
  have top0 : 0 < 1 - l ^ a / u ^ a := sub_pos.2 ((div_lt_one ua).2 hlu)
  have topl : 1 - l ^ a / u ^ a = l ^ a * (1 / l ^ a - 1 / u ^ a) := by field_simp
  refine ⟨by rw [high l hl le_rfl h.le, etop], fun m hm hne => ?_, fun p hp ht => ?_⟩
  · rw [etop]
    rcases lt_or_gt_of_ne hne with h' | h'
    · rw [low m hm h'.le, topl]
      exact mul_lt_mul_of_pos_right (Real.rpow_lt_rpow hm.le h' ha) hd
    · rcases le_or_gt m u with h'' | h''
      · rw [high m hm h'.le h'']
        have := div_lt_div_of_pos_right (Real.rpow_lt_rpow hl.le h' ha) ua
        linarith
      · rw [out m hm h'']; exact top0
  · rw [etop] at ht
    have hp1 : 0 < 1 - p := by
      have : 0 < l ^ a / u ^ a := by positivity
      linarith
    have x0 : 0 < p / (1 / l ^ a - 1 / u ^ a) := by positivity
    have s1 := Real.rpow_pos_of_pos x0 (1 / a)
    have s2 := Real.rpow_pos_of_pos hp1 (1 / a)
    have l1 : (p / (1 / l ^ a - 1 / u ^ a)) ^ (1 / a) < l := by
      calc _ < (l ^ a) ^ (1 / a) := Real.rpow_lt_rpow x0.le (by rw [div_lt_iff₀ hd, ← topl]; exact ht) (by positivity)
        _ = l := hinv' l hl.le
    have l2 : l < u * (1 - p) ^ (1 / a) := by
      have : l / u < (1 - p) ^ (1 / a) := by
        calc l / u = ((l / u) ^ a) ^ (1 / a) := (hinv' _ (by positivity)).symm
          _ < _ := Real.rpow_lt_rpow (by positivity) (by rw [etop]; linarith) (by positivity)
      rw [div_lt_iff₀ hu] at this
      linarith
    have l3 : u * (1 - p) ^ (1 / a) < u := by
      have := Real.rpow_lt_one hp1.le (by linarith : 1 - p < 1) (show 0 < 1 / a by positivity)
      nlinarith
    have hm2 : 0 < u * (1 - p) ^ (1 / a) := by positivity
    refine ⟨s1, l1, l2, l3, fun m hm => ⟨fun e => ?_, ?_⟩, ?_, ?_⟩
    · rcases le_or_gt m l with h' | h'
      · left
        rw [low m hm h'] at e
        rw [← e, mul_div_cancel_right₀ _ hd.ne', hinv' m hm.le]
      · right
        rcases le_or_gt m u with h'' | h''
        · rw [high m hm h'.le h''] at e
          rw [show 1 - p = (m / u) ^ a by rw [Real.div_rpow hm.le hu.le]; linarith, hinv' _ (by positivity)]
          field_simp
        · rw [out m hm h''] at e
          linarith
    · rintro (rfl | rfl)
      · rw [low _ s1 l1.le, hinv _ x0.le]
        exact div_mul_cancel₀ _ hd.ne'
      · rw [high _ hm2 l2.le l3.le, Real.mul_rpow hu.le s2.le, hinv _ hp1.le]
        field_simp
        ring
    · rw [Verif.Lemmas.ParetoBest.entropy ha s1, Verif.Lemmas.ParetoBest.entropy ha hm2]
      have := Real.log_lt_log s1 (l1.trans l2)
      linarith
    · rw [Verif.Lemmas.ParetoBest.mass ha hm2 l2.le, if_neg (lt_irrefl _), if_pos l2, div_self hm2.ne', Real.one_rpow, sub_self]

/-- **C135**: Pareto with `m` given.  Inside the interval (or at its lower end): every mass is that of exactly one `alpha`.
Below the interval there is a largest attainable mass, reached at
`alpha = log (log (u / m) / log (l / m)) / log (u / l)`; every smaller mass is that of exactly two, the smaller `alpha` with the
larger entropy.  At the upper end or above it the mass is zero. -/
theorem pareto_m_given (m l u : ℝ) (hm : 0 < m) (hl : 0 ≤ l) (h : l < u) :
    (l ≤ m → m < u → ∀ p, 0 < p → p < 1 → 0 < Real.log (1 - p) / Real.log (m / u) ∧
      ∀ a, 0 < a → (massOf (paretoPdf a m) l u = p ↔ a = Real.log (1 - p) / Real.log (m / u))) ∧
    (m < l → ∃ top, 0 < top ∧ top < 1 ∧
      0 < Real.log (Real.log (u / m) / Real.log (l / m)) / Real.log (u / l) ∧
      massOf (paretoPdf (Real.log (Real.log (u / m) / Real.log (l / m)) / Real.log (u / l)) m) l u = top ∧
      (∀ a, 0 < a → a ≠ Real.log (Real.log (u / m) / Real.log (l / m)) / Real.log (u / l) → massOf (paretoPdf a m) l u < top) ∧
      ∀ p, 0 < p → p < top → ∃ a₁ a₂, 0 < a₁ ∧ a₁ < a₂ ∧ (∀ a, 0 < a → (massOf (paretoPdf a m) l u = p ↔ a = a₁ ∨ a = a₂)) ∧
        entropyOf (paretoPdf a₂ m) < entropyOf (paretoPdf a₁ m)) ∧
    (u ≤ m → ∀ a, 0 < a → massOf (paretoPdf a m) l u = 0) := by
  have hu : 0 < u := lt_of_le_of_lt hl h
  refine ⟨fun hlm hmu p h0 h1 => ?_, fun hml => ?_, fun hum a ha => ?_⟩
  · have hx : m / u < 1 := (div_lt_one hu).2 hmu
    have hx0 : 0 < m / u := by positivity
    have n1 := Real.log_neg hx0 hx
    have n2 := Real.log_neg (show 0 < 1 - p by linarith) (by linarith)
    have e : ∀ a, 0 < a → massOf (paretoPdf a m) l u = 1 - (m / u) ^ a := by
      intro a ha
      rw [Verif.Lemmas.ParetoBest.mass ha hm h.le, if_neg (by linarith)]
      rcases hlm.lt_or_eq with h' | rfl
      · rw [if_pos h']
      · rw [if_neg (lt_irrefl _), div_self hm.ne', Real.one_rpow]
    refine ⟨div_pos_of_neg_of_neg n2 n1, fun a ha => ?_⟩
    rw [e a ha, eq_div_iff n1.ne]
    constructor
    · intro hp
      rw [show 1 - p = (m / u) ^ a by linarith, Real.log_rpow hx0]
    · intro hp
      rw [Real.rpow_def_of_pos hx0, mul_comm, hp, Real.exp_log (by linarith)]
      ring
  · have hl' : 0 < l := hm.trans hml
    have x0 : 0 < Real.log (l / m) := Real.log_pos (by rw [lt_div_iff₀ hm]; linarith)
    have xy : Real.log (l / m) < Real.log (u / m) := Real.log_lt_log (by positivity) (by gcongr)
    have y0 := x0.trans xy
    have diff : Real.log (u / m) - Real.log (l / m) = Real.log (u / l) := by
      rw [Real.log_div hu.ne' hm.ne', Real.log_div hl'.ne' hm.ne', Real.log_div hu.ne' hl'.ne']; ring
    have pw : ∀ z a : ℝ, 0 < z → (m / z) ^ a = Real.exp (-(a * Real.log (z / m))) := by
      intro z a hz
      rw [Real.rpow_def_of_pos (by positivity), ← inv_div z m, Real.log_inv]
      congr 1; ring
    have e : ∀ s, 0 < s → massOf (HalfFam.exponential.pdf s) (Real.log (l / m)) (Real.log (u / m)) =
        massOf (paretoPdf (1 / s) m) l u := by
      intro s hs
      rw [Verif.HalfScale.half_folded .exponential trivial hs, Verif.HalfScale.mass_folded
        (Verif.HalfScale.unfolded_peak .exponential trivial) hs x0.le xy.le]
      simp only [Verif.HalfScale.unfolded]
      rw [Verif.HalfScale.around_laplace (by positivity), Verif.HalfScale.around_laplace (by positivity),
        Verif.Lemmas.ParetoBest.mass (one_div_pos.2 hs) hm h.le, if_neg (by linarith), if_neg (by linarith), pw l _ hl', pw u _ hu]
      rw [one_div_mul_eq_div, one_div_mul_eq_div]
      ring
    have e' : ∀ a, 0 < a → massOf (paretoPdf a m) l u = massOf (HalfFam.exponential.pdf (1 / a)) (Real.log (l / m)) (Real.log (u / m)) := by
      intro a ha
      rw [e _ (one_div_pos.2 ha), one_div_one_div]
    obtain ⟨s₀, top, t1, t2, t3, t4, t5, t6⟩ := half_two .exponential trivial _ _ x0 xy
    have pk := (half_peak_scale _ _ x0 xy).1
    have hlog : 0 < Real.log (Real.log (u / m) / Real.log (l / m)) := Real.log_pos (by rw [lt_div_iff₀ x0]; linarith)
    have hd : 0 < Real.log (u / m) - Real.log (l / m) := by linarith
    have hs₀ : s₀ = (Real.log (u / m) - Real.log (l / m)) / Real.log (Real.log (u / m) / Real.log (l / m)) := by
      by_contra hne
      have a1 := pk s₀ t1 hne
      have a2 := t5 _ (div_pos hd hlog) (Ne.symm hne)
      rw [← t4] at a2
      simp only [HalfFam.pdf] at a2
      linarith
    have ha₀ : 1 / s₀ = Real.log (Real.log (u / m) / Real.log (l / m)) / Real.log (u / l) := by
      rw [hs₀, one_div_div, diff]
    rw [← ha₀]
    refine ⟨top, t2, t3, one_div_pos.2 t1, by rw [← e _ t1, t4], fun a ha hne => ?_, fun p hp ht => ?_⟩
    · rw [e' a ha]
      refine t5 _ (one_div_pos.2 ha) fun hc => hne ?_
      rw [← hc, one_div_one_div]
    · obtain ⟨s₁, s₂, q1, q2, q3, q4, -⟩ := t6 p hp ht
      have q5 := q1.trans (q2.trans q3)
      have q6 : 1 / s₂ < 1 / s₁ := one_div_lt_one_div_of_lt q1 (q2.trans q3)
      refine ⟨1 / s₂, 1 / s₁, one_div_pos.2 q5, q6, fun a ha => ?_, ?_⟩
      · rw [e' a ha, q4 _ (one_div_pos.2 ha), or_comm]
        have sw : ∀ s, 0 < s → (1 / a = s ↔ a = 1 / s) := by
          intro s hs
          constructor
          · rintro rfl; rw [one_div_one_div]
          · rintro rfl; rw [one_div_one_div]
        rw [sw _ q5, sw _ q1]
      · refine (width_ent (.paretoM m) hm (1 / s₁) (1 / s₂) (one_div_pos.2 q1) (one_div_pos.2 q5)).2 ?_
        simp only [PosGiven.width, one_div_one_div]
        exact q2.trans q3
  · rcases hum.lt_or_eq with h' | rfl
    · rw [Verif.Lemmas.ParetoBest.mass ha hm h.le, if_pos h']
    · rw [Verif.Lemmas.ParetoBest.mass ha hm h.le, if_neg (lt_irrefl _), if_pos h, div_self hm.ne', Real.one_rpow, sub_self]

/-! ### maxent -/

theorem positive_candidate (F : PosGiven) (o : Obj) (ho : construct F.family F.given = .ok o) (v : ℝ)
    (o1 o2 : Obj) (h : applyCandidate F.family o.names (getFixedParams o).1 (getFixedParams o).2 [v] o1 = .ok o2) :
    law F.family o2 = F.values v := by
  cases F <;>
    simp [construct, PosGiven.family, PosGiven.given, parametrize, simpleParam, simpleFam,
      gammaLikeParam, anyNotNone, allNotNone, blank, Obj.setAll, Obj.set, Except.ok_bind',
      Except.pure_eq] at ho <;>
    subst ho <;>
    simp [applyCandidate, getFixedParams, splitStep, getParams, getParamsFrom, Function.update, Except.map, Except.ok_bind',
      PosGiven.family, parametrize, kwCall, List.lookup, simpleParam, simpleFam, simpleUpdate, gammaLikeParam, gammaUpdate,
      invGammaUpdate, anyNotNone, allNotNone, Obj.setAll, Obj.set, Except.pure_eq, List.zipIdx] at h <;>
    subst h <;>
    simp [law, lawAttrs, PosGiven.family, PosGiven.values, simpleFam, Obj.setAll, Obj.set, Function.update]

/-- **C135**: maxent with one parameter given.  Let the runs completed before the first failure end at the admissible values
`ends`, in this order, and report their entropies.  The distribution returned keeps the parameter given; if one of the runs
gives the interval the mass up to 1e-4, it is the widest of all those that do so; otherwise it is the one of the first run. -/
theorem maxent_positive_given (F : PosGiven) (hF : F.Ok) (o : Obj) (ho : construct F.family F.given = .ok o)
    (b : ℝ → Base) (hb : ∀ v, F.Free v → (b v).discrete = false ∧ (b v).law = ofPdf (F.pdf v)) (l u p : ℝ) (hlu : l < u)
    (err : List ℝ → Option ℝ) (herr : ∀ v, F.Free v → err [v] = some |probBound (b v) l u p none|)
    (done : List Opt) (rest : List (Except Err Opt)) (hrest : ∀ r, rest.head? = some r → ∃ e, r = .error e)
    (ends : List ℝ) (hends : done.map (fun r => r.x) = ends.map fun v => [v])
    (hdone : ∀ r ∈ done, ∃ v, F.Free v ∧ r.x = [v] ∧ r.value = some ((-entropyOf (F.pdf v) : ℝ) : EReal))
    (o1 o2 : Obj) (r : Opt)
    (h : optimizeMaxEnt F.family o.names (getFixedParams o).1 (getFixedParams o).2 err (done.map .ok ++ rest) o1 =
      .ok (r, o2)) :
    ∃ v ∈ ends, F.Free v ∧ law F.family o2 = F.values v ∧
      ((∃ v' ∈ ends, |massOf (F.pdf v') l u - p| < 1 / 10000) → |massOf (F.pdf v) l u - p| < 1 / 10000 ∧
        ∀ v' ∈ ends, |massOf (F.pdf v') l u - p| < 1 / 10000 → F.width v' ≤ F.width v) ∧
      ((∀ v' ∈ ends, 1 / 10000 ≤ |massOf (F.pdf v') l u - p|) → ends.head? = some v) := by
  obtain ⟨h1, h2⟩ := maxent_leaves_selected _ _ _ _ _ _ _ _ _ h
  obtain ⟨v, hv, hx, i, hi, t1, t2⟩ := maxent_one b F.pdf F.Free hb l u p hlu err herr done rest hrest ends hends hdone r h1
  have hpos : ∀ v' ∈ ends, F.Free v' := by
    intro v' hv'
    have : [v'] ∈ done.map fun r => r.x := by rw [hends]; exact List.mem_map.2 ⟨v', hv', rfl⟩
    obtain ⟨r', hr', e⟩ := List.mem_map.1 this
    obtain ⟨w, hw, hxw, -⟩ := hdone r' hr'
    rw [e] at hxw
    simp only [List.cons.injEq, and_true] at hxw
    rw [hxw]; exact hw
  refine ⟨v, List.mem_of_getElem? hi, hv, positive_candidate F o ho v o1 o2 (by rw [← hx]; exact h2), fun hp => ?_,
    fun hp => by rw [List.head?_eq_getElem?, ← t2 hp, hi]⟩
  obtain ⟨a, c, -⟩ := t1 hp
  refine ⟨a, fun v' hv' hlt => ?_⟩
  have := c v' hv' hlt
  by_contra hc
  have := (width_ent F hF v v' hv (hpos v' hv')).2 (not_le.1 hc)
  simp only at *
  linarith

/-- **C135**: hence, if the completed runs that pass the check give the interval exactly the mass and one of them ends at the
widest distribution with the mass, that is the one returned. -/
theorem maxent_positive_best (F : PosGiven) (hF : F.Ok) (o : Obj) (ho : construct F.family F.given = .ok o)
    (b : ℝ → Base) (hb : ∀ v, F.Free v → (b v).discrete = false ∧ (b v).law = ofPdf (F.pdf v)) (l u p : ℝ) (hlu : l < u)
    (best : ℝ) (hfree : F.Free best) (hmass : massOf (F.pdf best) l u = p)
    (hbest : ∀ v, F.Free v → massOf (F.pdf v) l u = p → F.width v ≤ F.width best)
    (err : List ℝ → Option ℝ) (herr : ∀ v, F.Free v → err [v] = some |probBound (b v) l u p none|)
    (done : List Opt) (rest : List (Except Err Opt)) (hrest : ∀ r, rest.head? = some r → ∃ e, r = .error e)
    (ends : List ℝ) (hends : done.map (fun r => r.x) = ends.map fun v => [v])
    (hdone : ∀ r ∈ done, ∃ v, F.Free v ∧ r.x = [v] ∧ r.value = some ((-entropyOf (F.pdf v) : ℝ) : EReal))
    (hexact : ∀ v ∈ ends, |massOf (F.pdf v) l u - p| < 1 / 10000 → massOf (F.pdf v) l u = p) (hopt : best ∈ ends)
    (o1 o2 : Obj) (r : Opt)
    (h : optimizeMaxEnt F.family o.names (getFixedParams o).1 (getFixedParams o).2 err (done.map .ok ++ rest) o1 =
      .ok (r, o2)) :
    law F.family o2 = F.values best := by
  obtain ⟨v, hve, hv0, hl, h1, -⟩ := maxent_positive_given F hF o ho b hb l u p hlu err herr done rest hrest ends hends hdone
    o1 o2 r h
  have hok : |massOf (F.pdf best) l u - p| < 1 / 10000 := by rw [hmass, sub_self, abs_zero]; norm_num
  obtain ⟨hlt, hmax⟩ := h1 ⟨best, hopt, hok⟩
  rw [hl, width_inj F v best hv0 hfree (le_antisymm (hbest v hv0 (hexact v hve hlt)) (hmax best hopt hok))]

/-! The hypotheses are met. -/

/-- `maxent(Weibull(alpha=2), 1, e, p)`: the largest mass is that of `beta = sqrt ((e^2 - 1) / 2)` -/
example (v : ℝ) (hv : 0 < v) (hne : v ≠ ((Real.exp 1 ^ (2 : ℝ) - 1) / 2) ^ (1 / 2 : ℝ)) :
    massOf (weibullPdf 2 v) 1 (Real.exp 1) < massOf (weibullPdf 2 (((Real.exp 1 ^ (2 : ℝ) - 1) / 2) ^ (1 / 2 : ℝ))) 1 (Real.exp 1) := by
  have := (stretch_peak 1 (Real.exp 1) 2 one_pos (by simp) two_pos).1 v hv
  simp only [div_one, Real.log_exp, mul_one, Real.one_rpow] at this
  exact this hne

/-- `maxent(Gamma(alpha=3), 0, 2, 0.9)`: one `beta` has the mass; `maxent(InverseGamma(alpha=3), 1, 2, p)`: two have it -/
example : (∃ v, 0 < v ∧ massOf (gammaPdf 3 v) 0 2 = 9 / 10) ∧
    ∃ p v₁ v₂ : ℝ, 0 < v₁ ∧ v₁ < v₂ ∧ massOf (inverseGammaPdf 3 v₁) 1 2 = p ∧ massOf (inverseGammaPdf 3 v₂) 1 2 = p := by
  constructor
  · obtain ⟨v, hv, e⟩ := stretch_from_zero (.gammaAlpha 3) (by norm_num [PosGiven.Ok]) trivial 2 (9 / 10) two_pos (by norm_num)
      (by norm_num)
    exact ⟨v, hv, (e v hv).2 rfl⟩
  · obtain ⟨v₀, top, -, t0, -, -, -, hp⟩ := stretch_two (.inverseGammaAlpha 3) (by norm_num [PosGiven.Ok]) trivial 1 2 one_pos
      one_lt_two
    obtain ⟨v₁, v₂, h1, h2, a, b, e, -⟩ := hp (top / 2) (by linarith) (by linarith)
    exact ⟨top / 2, v₁, v₂, h1, a.trans b, (e v₁ h1).2 (.inl rfl), (e v₂ h2).2 (.inr rfl)⟩

/-- `maxent(LogNormal(mu=0), 0, 2, p)`: no distribution has the mass 0.4, one has the mass 0.9 -/
example : (∀ s, 0 < s → massOf (LogFam.logNormal.pdf 0 s) 0 2 ≠ 2 / 5) ∧
    ∃ s, 0 < s ∧ massOf (LogFam.logNormal.pdf 0 s) 0 2 = 9 / 10 := by
  obtain ⟨a, b, -⟩ := log_median_zero .logNormal 2 0 (9 / 10) two_pos (by norm_num) (by norm_num)
  rw [Real.exp_zero] at a b
  refine ⟨fun s hs e => ?_, ?_⟩
  · have := b one_lt_two s hs
    rw [e] at this; norm_num at this
  · obtain ⟨s, hs, e⟩ := a one_lt_two (by norm_num)
    exact ⟨s, hs, (e s hs).2 rfl⟩

/-- `maxent(Pareto(alpha=1), 1, 4, 0.5)`: the two distributions with the mass start at 2/3 and at 2, and the second, which gives
the values from 1 to 2 no probability, is returned when runs end at both -/
example (o1 : Obj) : ∃ (o : Obj) (err : List ℝ → Option ℝ) (done : List Opt) (o2 : Obj) (r : Opt),
    construct (.simple .pareto) (PosGiven.paretoAlpha 1).given = .ok o ∧
    done.map (fun r => r.x) = [2 / 3, 2].map (fun v => [v]) ∧
    optimizeMaxEnt (.simple .pareto) o.names (getFixedParams o).1 (getFixedParams o).2 err
      (done.map .ok ++ [.error .valueError]) o1 = .ok (r, o2) ∧
    law (.simple .pareto) o2 = [some 1, some 2] ∧ massOf (paretoPdf 1 2) 1 2 = 0 := by
  obtain ⟨-, -, hp⟩ := pareto_alpha_given 1 1 4 one_pos one_pos (by norm_num)
  obtain ⟨-, -, -, -, hmass, -, hzero⟩ := hp (1 / 2) (by norm_num) (by norm_num)
  simp only [Real.rpow_one, div_one] at hmass hzero
  norm_num at hmass hzero
  set err : List ℝ → Option ℝ := fun x => match x with
    | [m] => some |probBound (paretoBase [1, m]) 1 4 (1 / 2) none|
    | _ => none with herr
  set E : ℝ → EReal := fun m => ((-entropyOf (paretoPdf 1 m) : ℝ) : EReal) with hE
  have law1 : ∀ m, 0 < m → (paretoBase [1, m]).discrete = false ∧ (paretoBase [1, m]).law = ofPdf (paretoPdf 1 m) :=
    fun m hm => paretoBase_law [1, m] ⟨1, m, rfl, one_pos, hm⟩
  obtain ⟨o, ho⟩ : ∃ o, construct (.simple .pareto) (PosGiven.paretoAlpha 1).given = .ok o := ⟨_, rfl⟩
  obtain ⟨i, r, v, e1, e2, -⟩ := maxent_selects err [⟨[2 / 3], some (E (2 / 3))⟩, ⟨[2], some (E 2)⟩] [.error .valueError] (by simp)
    ⟨[2], some (E 2)⟩ (by simp) (E 2) ⟨⟨_, rfl, by
      rw [constraint_is_mass _ _ _ _ (by norm_num) (fun h => by rw [(law1 2 two_pos).1] at h; cases h), (law1 2 two_pos).2]
      change |massOf (paretoPdf 1 2) 1 4 - 1 / 2| < _
      rw [(hmass 2 two_pos).2 (.inr rfl), sub_self, abs_zero]
      norm_num⟩, rfl⟩ (EReal.coe_ne_top _)
  have hr : ∃ m, r.x = [m] := by
    have hmem := List.mem_of_getElem? e2
    simp only [List.mem_cons, List.not_mem_nil, or_false] at hmem
    rcases hmem with rfl | rfl
    · exact ⟨_, rfl⟩
    · exact ⟨_, rfl⟩
  obtain ⟨m, hm⟩ := hr
  obtain ⟨o2, ho2⟩ : ∃ o2, applyCandidate (.simple .pareto) o.names (getFixedParams o).1 (getFixedParams o).2 [m] o1 = .ok o2 := by
    simp [construct, PosGiven.given, parametrize, simpleParam, simpleFam, anyNotNone, allNotNone, blank, Obj.setAll, Obj.set,
      Except.ok_bind', Except.pure_eq] at ho
    subst ho
    simp [applyCandidate, getFixedParams, splitStep, getParams, getParamsFrom, Function.update, Except.map, Except.ok_bind',
      Except.pure_eq, List.zipIdx, update, parametrize, simpleParam, simpleFam, allNotNone]
  have hrun : optimizeMaxEnt (.simple .pareto) o.names (getFixedParams o).1 (getFixedParams o).2 err
      ([⟨[2 / 3], some (E (2 / 3))⟩, ⟨[2], some (E 2)⟩].map .ok ++ [.error .valueError]) o1 = .ok (r, o2) := by
    unfold optimizeMaxEnt
    rw [e1]
    simp only [Except.ok_bind']
    rw [hm, ho2]
    rfl
  refine ⟨o, err, [⟨[2 / 3], some (E (2 / 3))⟩, ⟨[2], some (E 2)⟩], o2, r, ho, rfl, hrun, ?_, hzero⟩
  refine maxent_positive_best (.paretoAlpha 1) one_pos o ho (fun m => paretoBase [1, m]) law1 1 4 (1 / 2) (by norm_num) 2
    two_pos ((hmass 2 two_pos).2 (.inr rfl)) (fun m hm e => ?_) err (fun m _ => rfl) _ [.error .valueError] (by simp) [2 / 3, 2] rfl
    ?_ ?_ (by simp) o1 o2 r hrun
  · rcases (hmass m hm).1 e with rfl | rfl
    · norm_num [PosGiven.width]
    · exact le_rfl
  · intro r' hr'
    simp only [List.mem_cons, List.not_mem_nil, or_false] at hr'
    rcases hr' with rfl | rfl
    · exact ⟨2 / 3, show (0 : ℝ) < 2 / 3 by norm_num, rfl, rfl⟩
    · exact ⟨2, two_pos, rfl, rfl⟩
  · intro m hm _
    simp only [List.mem_cons, List.not_mem_nil, or_false] at hm
    rcases hm with rfl | rfl
    · exact (hmass (2 / 3) (by norm_num)).2 (.inl rfl)
    · exact (hmass 2 two_pos).2 (.inr rfl)

end Verif.Props
