import Verif.Lemmas.VonMisesArc
import Verif.Props.Intervals
import Verif.Props.Hdi
import Verif.Props.VonMisesBest
import Verif.Props.PointInterval
import Mathlib.Tactic

/-!
# C154: the intervals of VonMises are arcs
-/

namespace Verif.Props
open Verif Verif.Modifier Verif.Interval Verif.Hdi Verif.Spec Verif.VMMass Verif.VMArc MeasureTheory Set

/-- **C154**: whatever interval is found for mode zero, the arc from the first to the second end reported turns by the width of that
interval and has its mass. -/
theorem vonmises_interval_arc (super : ℝ → Except Err (ℝ × ℝ)) (mu k lo hi : ℝ) (h : super 0 = .ok (lo, hi)) (hl : -Real.pi ≤ lo)
    (h0 : lo < hi) (hu : hi ≤ Real.pi) (h1 : hi - lo < 2 * Real.pi) :
    ∃ a b : ℝ, vonMisesInterval super none mu = (.ok (a, b), mu) ∧ arcLength a b = hi - lo ∧
      (vonMisesLaw mu k).real (arc a b) = (vonMisesLaw 0 k).real (Icc lo hi) := by
  obtain ⟨a, b, e, ha, hb⟩ := vonmises_interval_partial super mu lo hi h
  have hA := arc_rotated h0 h1 ha hb
  refine ⟨a, b, e, hA, ?_⟩
  rw [arc_mass ha.1 hb.1, mass_window hl h0.le hu, hA]
  obtain ⟨-, m, hm⟩ := ha
  rw [hm, show lo + mu + m * (2 * Real.pi) + (hi - lo) / 2 - mu = ((lo + hi) / 2 - 0) + m * (2 * Real.pi) by ring, window_int]

/-- the interval with equal tails is symmetric -/
private theorem eti_sym (b : Base) (k : ℝ) (hb : b.discrete = false) (hlaw : b.law = vonMisesLaw 0 k) (ci m : ℝ)
    (h0 : 0 < m) (h1 : m < 1) :
    ∃ h, 0 < h ∧ h < Real.pi ∧ eti b true true ci none (some m) = .ok (((-h : ℝ) : EReal), (h : EReal)) ∧
      (vonMisesLaw 0 k).real (Icc (-h) h) = m := by
  have hpi := Real.pi_pos
  have hp := VMLaw.prob 0 k
  have hz := scale_pos k
  obtain ⟨lo, hi, e, t1, t2, t3⟩ := eti_exact b hb ci m h0 h1
  rw [hlaw] at t1 t2 t3
  have hout : (vonMisesLaw 0 k).real (Ioc (-Real.pi) Real.pi)ᶜ = 0 := by
    rw [measureReal_def, law_out, ENNReal.toReal_zero]
  have hin : (vonMisesLaw 0 k).real (Ioc (-Real.pi) Real.pi) = 1 := by
    have := measureReal_compl (μ := vonMisesLaw 0 k) (measurableSet_Ioc (a := -Real.pi) (b := Real.pi))
    rw [hout, probReal_univ] at this
    linarith
  have l1 : -Real.pi < lo := by
    by_contra hc
    push Not at hc
    have : (vonMisesLaw 0 k).real (Iio lo) ≤ (vonMisesLaw 0 k).real (Ioc (-Real.pi) Real.pi)ᶜ :=
      measureReal_mono (fun x hx hx' => absurd (hx'.1.trans hx) (not_lt.2 hc))
    linarith
  have u1 : hi < Real.pi := by
    by_contra hc
    push Not at hc
    have : (vonMisesLaw 0 k).real (Ioi hi) ≤ (vonMisesLaw 0 k).real (Ioc (-Real.pi) Real.pi)ᶜ :=
      measureReal_mono (fun x hx hx' => absurd (hx.trans_le hx'.2) (not_lt.2 hc))
    linarith
  have l2 : lo ≤ Real.pi := by
    by_contra hc
    push Not at hc
    have : (vonMisesLaw 0 k).real (Ioc (-Real.pi) Real.pi) ≤ (vonMisesLaw 0 k).real (Iio lo) :=
      measureReal_mono (fun x hx => hx.2.trans_lt hc)
    linarith
  have u2 : -Real.pi ≤ hi := by
    by_contra hc
    push Not at hc
    have : (vonMisesLaw 0 k).real (Ioc (-Real.pi) Real.pi) ≤ (vonMisesLaw 0 k).real (Ioi hi) :=
      measureReal_mono (fun x hx => hc.trans hx.1)
    linarith
  have s1 : (vonMisesLaw 0 k).real (Iio lo) = (vonMisesLaw 0 k).real (Icc (-Real.pi) lo) := by
    rw [law_inter, show Iio lo ∩ Ioc (-Real.pi) Real.pi = Ioo (-Real.pi) lo by
      ext x
      simp only [mem_inter_iff, mem_Iio, mem_Ioc, mem_Ioo]
      exact ⟨fun h => ⟨h.2.1, h.1⟩, fun h => ⟨h.2, h.1, h.2.le.trans l2⟩⟩]
    exact law_congr Ioo_ae_eq_Icc
  have s2 : (vonMisesLaw 0 k).real (Ioi hi) = (vonMisesLaw 0 k).real (Icc hi Real.pi) := by
    rw [law_inter, show Ioi hi ∩ Ioc (-Real.pi) Real.pi = Ioc hi Real.pi by
      ext x
      simp only [mem_inter_iff, mem_Ioi, mem_Ioc]
      exact ⟨fun h => ⟨h.1, h.2.2⟩, fun h => ⟨h.1, u2.trans_lt h.1, h.2⟩⟩]
    exact law_congr Ioc_ae_eq_Icc
  have hlh : lo = -hi := by
    rw [s1, mass_window le_rfl l1.le l2] at t1
    rw [s2, mass_window u2 u1.le le_rfl, ← window_even, ← t1] at t2
    have t4 := (div_left_inj' hz.ne').1 t2
    unfold window at t4
    rw [show -((hi + Real.pi) / 2 - 0) - (Real.pi - hi) / 2 = -Real.pi by ring,
      show -((hi + Real.pi) / 2 - 0) + (Real.pi - hi) / 2 = -hi by ring,
      show (-Real.pi + lo) / 2 - 0 - (lo - -Real.pi) / 2 = -Real.pi by ring,
      show (-Real.pi + lo) / 2 - 0 + (lo - -Real.pi) / 2 = lo by ring] at t4
    have d : ∫ t in (-hi)..lo, bump k t = 0 := by
      rw [← intervalIntegral.integral_interval_sub_left (bump_int k (-Real.pi) lo) (bump_int k (-Real.pi) (-hi)), t4, sub_self]
    rcases lt_trichotomy lo (-hi) with h | h | h
    · rw [intervalIntegral.integral_symm] at d
      have := intervalIntegral.intervalIntegral_pos_of_pos (bump_int k lo (-hi)) (bump_pos k) h
      linarith
    · exact h
    · have := intervalIntegral.intervalIntegral_pos_of_pos (bump_int k (-hi) lo) (bump_pos k) h
      linarith
  have hpos : 0 < hi := by
    by_contra hc
    push Not at hc
    have : Icc lo hi ⊆ {0} := by
      rintro x ⟨x1, x2⟩
      rw [hlh] at x1
      exact mem_singleton_iff.2 (by linarith)
    have h3 := measureReal_mono (μ := vonMisesLaw 0 k) this
    have h4 : (vonMisesLaw 0 k).real {0} = 0 := by
      rw [measureReal_def, law_ac 0 k (measure_singleton (μ := volume) (0 : ℝ)), ENNReal.toReal_zero]
    linarith
  refine ⟨hi, hpos, u1, ?_, ?_⟩
  · rw [e, hlh]
  · rw [← hlh]; exact t3

/-- **C154**: the equal-tailed interval of VonMises(mu, k) with mass `m` goes from `mu - h` to `mu + h`, up to full turns; as an arc it
has the mass `m`, and every other arc with at least that mass is longer. -/
theorem vonmises_eti_arc (b : Base) (mu k : ℝ) (hk : 0 < k) (hb : b.discrete = false) (hlaw : b.law = vonMisesLaw 0 k) (ci m : ℝ)
    (h0 : 0 < m) (h1 : m < 1) (super : ℝ → Except Err (ℝ × ℝ))
    (hsuper : super 0 = (eti b true true ci none (some m)).map fun p => (p.1.toReal, p.2.toReal)) :
    ∃ a c h : ℝ, vonMisesInterval super none mu = (.ok (a, c), mu) ∧ 0 < h ∧ h < Real.pi ∧ SameAngle (mu - h) a ∧
      SameAngle (mu + h) c ∧ (vonMisesLaw mu k).real (arc a c) = m ∧
      ∀ a' c', a' ∈ Ioc (-Real.pi) Real.pi → c' ∈ Ioc (-Real.pi) Real.pi → m ≤ (vonMisesLaw mu k).real (arc a' c') →
        (a' = a ∧ c' = c) ∨ arcLength a c < arcLength a' c' := by
  have hz := scale_pos k
  obtain ⟨h, hh0, hh1, e, hm⟩ := eti_sym b k hb hlaw ci m h0 h1
  have hs : super 0 = .ok (-h, h) := by rw [hsuper, e]; simp [Except.map]
  obtain ⟨a, c, e1, ha, hc⟩ := vonmises_interval_partial super mu (-h) h hs
  obtain ⟨a2, c2, e2, hL, hM⟩ := vonmises_interval_arc super mu k (-h) h hs (by linarith) (by linarith) hh1.le (by linarith)
  have e3 : a = a2 ∧ c = c2 := by
    rw [e1] at e2
    simpa using e2
  obtain ⟨rfl, rfl⟩ := e3
  have ha' : SameAngle (mu - h) a := by rwa [show mu - h = -h + mu by ring]
  have hc' : SameAngle (mu + h) c := by rwa [add_comm mu h]
  refine ⟨a, c, h, e1, hh0, hh1, ha', hc', hM.trans hm, fun x y hx hy hxy => ?_⟩
  rw [← hm, mass_window (by linarith) (by linarith) hh1.le, arc_mass hx hy, div_le_div_iff_of_pos_right hz,
    show (h - -h) / 2 = h by ring, show (-h + h) / 2 - 0 = (0 : ℝ) by ring] at hxy
  obtain ⟨b0, b1⟩ := arcLength_bounds hx hy
  obtain ⟨w1, w2⟩ := window_wide hk hh0 b0 b1 hxy
  rw [hL, show h - -h = 2 * h by ring]
  rcases w1.lt_or_eq with hlt | heq
  · exact Or.inr hlt
  · left
    obtain ⟨n, hn⟩ := w2 heq.symm
    rw [← heq] at hn
    have hx1 : SameAngle (mu - h) x := ⟨hx, n, by linarith⟩
    refine ⟨same_unique hx1 ha', ?_⟩
    refine same_unique (x := mu + h) ⟨hy, ?_⟩ hc'
    unfold arcLength at heq
    split_ifs at heq with hle
    · exact ⟨n, by linarith⟩
    · exact ⟨n - 1, by push_cast; linarith⟩

/-- **C154**: an exact optimiser finds the same interval: the highest density interval of VonMises is its equal-tailed interval. -/
theorem vonmises_hdi_is_eti (b : Base) (k : ℝ) (hk : 0 < k) (hb : b.discrete = false) (hlaw : b.law = vonMisesLaw 0 k)
    (hlo : b.lo = ((-Real.pi : ℝ) : EReal)) (hhi : b.hi = ((Real.pi : ℝ) : EReal)) (ci m : ℝ) (h0 : 0 < m) (h1 : m < 1)
    (minimize : Minimize) (hmin : Exact minimize) :
    eti b true true ci none (some m) =
      .ok (((continuousHdi minimize b m).1 : EReal), ((continuousHdi minimize b m).2 : EReal)) := by
  have hpi := Real.pi_pos
  have hz := scale_pos k
  obtain ⟨h, hh0, hh1, e, hm⟩ := eti_sym b k hb hlaw ci m h0 h1
  obtain ⟨x1, x2, x3, x4, x5⟩ := hdi_continuous minimize hmin b hb m h0 h1
  set x := continuousHdi minimize b m
  rw [hlo, EReal.coe_le_coe_iff] at x1
  rw [hhi, EReal.coe_le_coe_iff] at x3
  rw [hlaw] at x4
  have hs := x5 (-h) h (by linarith) (by rw [hlaw, hm])
  have hw : window k h 0 ≤ window k ((x.2 - x.1) / 2) ((x.1 + x.2) / 2 - 0) := by
    rw [← hm, mass_window x1 x2 x3, mass_window (by linarith) (by linarith) hh1.le, div_left_inj' hz.ne',
      show (h - -h) / 2 = h by ring, show (-h + h) / 2 - 0 = (0 : ℝ) by ring] at x4
    exact x4.ge
  obtain ⟨w1, w2⟩ := window_wide hk hh0 (by linarith) (by linarith) hw
  have hL : x.2 - x.1 = 2 * h := by linarith
  obtain ⟨n, hn⟩ := w2 hL
  have n1 : n < 1 := by
    by_contra hc
    have : (1 : ℝ) ≤ n := by exact_mod_cast not_lt.1 hc
    nlinarith
  have n2 : -1 < n := by
    by_contra hc
    have : (n : ℝ) ≤ -1 := by exact_mod_cast not_lt.1 hc
    nlinarith
  have n0 : n = 0 := by omega
  rw [n0] at hn
  simp only [Int.cast_zero, zero_mul, sub_zero] at hn
  have e1 : x.1 = -h := by linarith
  have e2 : x.2 = h := by linarith
  rw [e, e1, e2]

/-- **C154**: the first end reported is below the second exactly if the arc does not cross the cut at `π`; -/
theorem vonmises_order (mu h a c : ℝ) (hmu : mu ∈ Ioc (-Real.pi) Real.pi) (h0 : 0 < h) (h1 : h < Real.pi) (ha : SameAngle (mu - h) a)
    (hc : SameAngle (mu + h) c) : a ≤ c ↔ -Real.pi < mu - h ∧ mu + h ≤ Real.pi := by
  have hpi := Real.pi_pos
  have hL : arcLength a c = 2 * h := by
    rw [arc_rotated (lo := -h) (hi := h) (mu := mu) (by linarith) (by linarith) (by rwa [show -h + mu = mu - h by ring])
      (by rwa [add_comm h mu])]
    ring
  constructor
  · intro hle
    rw [arcLength, if_pos hle] at hL
    obtain ⟨⟨a1, a2⟩, n, hn⟩ := ha
    have n1 : n < 1 := by
      by_contra hcn
      have : (1 : ℝ) ≤ n := by exact_mod_cast not_lt.1 hcn
      nlinarith [hmu.1, hc.1.2]
    have n2 : -1 < n := by
      by_contra hcn
      have : (n : ℝ) ≤ -1 := by exact_mod_cast not_lt.1 hcn
      nlinarith [hmu.2]
    have n0 : n = 0 := by omega
    rw [n0] at hn
    simp only [Int.cast_zero, zero_mul, add_zero] at hn
    have := hc.1.2
    constructor <;> linarith
  · rintro ⟨e1, e2⟩
    have p1 : SameAngle (mu - h) (mu - h) := ⟨⟨e1, by linarith [hmu.2]⟩, 0, by simp⟩
    have p2 : SameAngle (mu + h) (mu + h) := ⟨⟨by linarith [hmu.1], e2⟩, 0, by simp⟩
    rw [same_unique ha p1, same_unique hc p2]
    linarith

/-- **C154**: if it does cross, the values between the two numbers reported have the complementary mass. -/
theorem vonmises_between (mu k m a c : ℝ) (ha : a ∈ Ioc (-Real.pi) Real.pi) (hc : c ∈ Ioc (-Real.pi) Real.pi) (hca : c < a)
    (hm : (vonMisesLaw mu k).real (arc a c) = m) : (vonMisesLaw mu k).real (Icc c a) = 1 - m := by
  have hp := VMLaw.prob mu k
  rw [← hm, ← probReal_compl_eq_one_sub]
  · rw [law_inter mu k (arc a c)ᶜ]
    have : (arc a c)ᶜ ∩ Ioc (-Real.pi) Real.pi = Ioo c a := by
      ext x
      simp only [arc, mem_inter_iff, mem_compl_iff, mem_ofPred_eq, mem_Ioo]
      constructor
      · rintro ⟨h1, h2⟩
        by_contra h3
        refine h1 ⟨h2, Or.inr ⟨hca, ?_⟩⟩
        by_contra h4
        push Not at h4
        exact h3 ⟨h4.2, h4.1⟩
      · rintro ⟨h1, h2⟩
        refine ⟨?_, hc.1.trans h1, h2.le.trans ha.2⟩
        rintro ⟨-, ⟨h3, -⟩ | ⟨-, h3 | h3⟩⟩ <;> linarith
    rw [this]
    exact law_congr Ioo_ae_eq_Icc.symm
  · have e : arc a c = (Icc a Real.pi ∪ Ioc (-Real.pi) c) := by
      ext x
      simp only [arc, mem_ofPred_eq, mem_Icc, mem_Ioc, mem_union]
      constructor
      · rintro ⟨⟨h1, h2⟩, ⟨h3, -⟩ | ⟨-, h3 | h3⟩⟩
        · exact absurd hca (not_lt.2 h3)
        · exact Or.inl ⟨h3, h2⟩
        · exact Or.inr ⟨h1, h3⟩
      · rintro (⟨h1, h2⟩ | ⟨h1, h2⟩)
        · exact ⟨⟨ha.1.trans_le h1, h2⟩, Or.inr ⟨hca, Or.inl h1⟩⟩
        · exact ⟨⟨h1, h2.trans hc.2⟩, Or.inr ⟨hca, Or.inr h2⟩⟩
    rw [e]
    exact measurableSet_Icc.union measurableSet_Ioc

/-- **C154**: the line drawn below a plot runs over exactly the points of the arc. -/
theorem vonmises_drawn (s : PointInterval.Shown) (rc : PointInterval.Settings) (interval : Option String) (rotated : Bool)
    (f : ℝ → ℝ × ℝ) (hk : Kind s (interval.getD rc.kind) f) (m a c : ℝ) (hf : f m = (a, c)) (ha : a ∈ Ioc (-Real.pi) Real.pi)
    (hc : c ∈ Ioc (-Real.pi) Real.pi) (hac : a ≠ c) :
    Gives (PointInterval.pointInterval s rc interval (some [m]) rotated) fun ms =>
      covered rotated 4 ms ∩ Ioc (-Real.pi) Real.pi = arc a c := by
  obtain ⟨ms, e, -, h, -⟩ := one_interval_partial s rc interval rotated f hk m (by rw [hf]; exact hac)
  refine ⟨ms, e, ?_⟩
  simp only
  rw [h, hf]
  ext x
  unfold member
  simp only [arc, mem_ofPred_eq, mem_inter_iff, mem_Ioc]
  split_ifs with hle
  · simp only [mem_Icc, hle, true_and, not_lt.2 hle, false_and, or_false]
    tauto
  · simp only [mem_union, mem_Icc, hle, false_and, false_or, not_le.1 hle, true_and]
    constructor
    · rintro ⟨h1 | h1, h2⟩
      · exact ⟨h2, Or.inl h1.1⟩
      · exact ⟨h2, Or.inr h1.2⟩
    · rintro ⟨h2, h1 | h1⟩
      · exact ⟨Or.inl ⟨h1, h2.2⟩, h2⟩
      · exact ⟨Or.inr ⟨h2.1.le, h1⟩, h2⟩

/-! The hypotheses are met. -/

/-- an interval from 2 through π to -2 -/
example : Gives (PointInterval.pointInterval ⟨fun _ => [], fun _ => (2, -2), fun _ => (2, -2), 3⟩ ⟨"eti", 0.94⟩ none (some [0.9]) false)
    fun ms => covered false 4 ms ∩ Ioc (-Real.pi) Real.pi = arc 2 (-2) := by
  have hpi := Real.pi_gt_three
  exact vonmises_drawn _ _ _ _ (fun _ => (2, -2)) (Or.inl ⟨rfl, rfl⟩) 0.9 2 (-2) rfl ⟨by linarith, by linarith⟩
    ⟨by linarith, by linarith⟩ (by norm_num)

/-- VonMises(0, k) with its support -/
noncomputable def arcBase (k : ℝ) : Base :=
  haveI : IsProbabilityMeasure (volume.withDensity fun y => ENNReal.ofReal (circPdf 0 k y)) := VMLaw.prob 0 k
  densityBase (circPdf 0 k) (VMLaw.meas 0 k) (VMLaw.nonneg 0 k) ((-Real.pi : ℝ) : EReal) ((Real.pi : ℝ) : EReal) (by
    have h : ∀ᵐ x ∂vonMisesLaw 0 k, x ∈ Ioc (-Real.pi) Real.pi := by
      rw [ae_iff]
      exact law_out 0 k
    filter_upwards [h] with x hx
    exact ⟨EReal.coe_le_coe_iff.2 hx.1.le, EReal.coe_le_coe_iff.2 hx.2⟩)

/-- the 90% interval of VonMises(3, 2) -/
example : ∃ a c h : ℝ, vonMisesInterval (fun _ => (eti (arcBase 2) true true 0.94 none (some 0.9)).map fun p => (p.1.toReal, p.2.toReal))
      none 3 = (.ok (a, c), 3) ∧ 0 < h ∧ h < Real.pi ∧ SameAngle (3 - h) a ∧ SameAngle (3 + h) c ∧
      (vonMisesLaw 3 2).real (arc a c) = 0.9 ∧
      ∀ a' c', a' ∈ Ioc (-Real.pi) Real.pi → c' ∈ Ioc (-Real.pi) Real.pi → 0.9 ≤ (vonMisesLaw 3 2).real (arc a' c') →
        (a' = a ∧ c' = c) ∨ arcLength a c < arcLength a' c' :=
  vonmises_eti_arc (arcBase 2) 3 2 two_pos rfl rfl 0.94 0.9 (by norm_num) (by norm_num) _ rfl

example (minimize : Minimize) (h : Exact minimize) : eti (arcBase 2) true true 0.94 none (some 0.9) =
    .ok (((continuousHdi minimize (arcBase 2) 0.9).1 : EReal), ((continuousHdi minimize (arcBase 2) 0.9).2 : EReal)) :=
  vonmises_hdi_is_eti (arcBase 2) 2 two_pos rfl rfl rfl rfl 0.94 0.9 (by norm_num) (by norm_num) minimize h

/-- from 2 to 4 about 3 crosses the cut: 4 is reported as `4 - 2π`, below 2 -/
example (a c : ℝ) (ha : SameAngle (3 - 1) a) (hc : SameAngle (3 + 1) c) : c < a := by
  have hpi := Real.pi_gt_three
  have h4 := Real.pi_lt_d2
  refine not_le.1 fun h => ?_
  have := ((vonmises_order 3 1 a c ⟨by linarith, hpi.le⟩ one_pos (by linarith) ha hc).1 h).2
  norm_num at h4
  linarith

end Verif.Props
