import Verif.Spec.TwoIntervals
import Verif.Props.Hdi
import Verif.Props.Intervals
import Verif.Lemmas.HalfScale
import Verif.Lemmas.ParetoBest

/-!
# C155: when the highest density interval is the equal-tailed interval
-/

namespace Verif.Props
open Verif Verif.Modifier Verif.Hdi Verif.Interval Verif.Spec Verif.LocScale Verif.HalfScale MeasureTheory Set

section
variable (b : Base) (hb : b.discrete = false)
include hb

private theorem law_set {S : Set ℝ} (hS : MeasurableSet S) : b.law.real S = ∫ s in S, b.pdf s := by
  obtain ⟨hm, hl⟩ := b.continuous_law hb
  rw [integral_eq_lintegral_of_nonneg_ae (ae_of_all _ b.pdf_nonneg) hm.aestronglyMeasurable.restrict, measureReal_def]
  congr 1
  conv_lhs => rw [hl]
  rw [withDensity_apply _ hS]

private theorem icc_int {a c : ℝ} (h : a ≤ c) : b.law.real (Icc a c) = ∫ s in a..c, b.pdf s := by
  rw [law_Icc_eq b hb, law_Ioc b hb h]

/-- no interval of the same length as a shortest one has more mass -/
private theorem no_better {mass : ℝ} (h0 : 0 < mass) {x : ℝ × ℝ} (hle : x.1 ≤ x.2)
    (hs : ∀ a c, a ≤ c → mass ≤ b.law.real (Icc a c) → x.2 - x.1 ≤ c - a) (t : ℝ) :
    ∫ u in (x.1 + t)..(x.2 + t), b.pdf u ≤ mass := by
  by_contra hcon
  push Not at hcon
  obtain ⟨c', g1, g2, g3⟩ := shrink (integrable_pdf b hb) h0 (by linarith) hcon
  have := hs (x.1 + t) c' g1 (by rw [icc_int b hb g1, g3])
  linarith

/-- mass gained by moving a window -/
private theorem moved_gain (p q t : ℝ) :
    (∫ u in p..q, b.pdf u) - ∫ u in (p + t)..(q + t), b.pdf u
      = ∫ s in (0 : ℝ)..t, (b.pdf (s + p) - b.pdf (s + q)) := by
  have hI := integrable_pdf b hb
  have hii : ∀ a b', IntervalIntegrable b.pdf volume a b' := fun a b' => hI.intervalIntegrable
  rw [intervalIntegral.integral_sub ((hI.comp_add_right p).intervalIntegrable) ((hI.comp_add_right q).intervalIntegrable),
    intervalIntegral.integral_comp_add_right (fun s => b.pdf s), intervalIntegral.integral_comp_add_right (fun s => b.pdf s)]
  have e1 := intervalIntegral.integral_add_adjacent_intervals (hii p q) (hii q (q + t))
  have e2 := intervalIntegral.integral_add_adjacent_intervals (hii p (p + t)) (hii (p + t) (q + t))
  rw [zero_add, zero_add, add_comm t p, add_comm t q]
  linarith

private theorem gain_pos {p q t : ℝ} (ht : 0 < t) (h : ∀ s, 0 < s → s < t → b.pdf (s + q) < b.pdf (s + p)) :
    ∫ u in (p + t)..(q + t), b.pdf u < ∫ u in p..q, b.pdf u := by
  have hI := integrable_pdf b hb
  have := intervalIntegral.intervalIntegral_pos_of_pos_on (f := fun s => b.pdf (s + p) - b.pdf (s + q)) (a := 0) (b := t)
    (((hI.comp_add_right p).sub (hI.comp_add_right q)).intervalIntegrable)
    (fun s hs => sub_pos.2 (h s hs.1 hs.2)) ht
  rw [← moved_gain b hb p q t] at this
  linarith

private theorem sym_tail {c : ℝ} (hc : SymPeak b.pdf c) (a : ℝ) : b.law.real (Iio a) = b.law.real (Ioi (2 * c - a)) := by
  rw [law_set b hb measurableSet_Iio, law_set b hb measurableSet_Ioi, ← integral_indicator measurableSet_Iio,
    ← integral_indicator measurableSet_Ioi, ← integral_sub_left_eq_self _ volume (2 * c)]
  congr 1
  ext x
  have e : b.pdf (2 * c - x) = b.pdf x := by
    have := hc.even (x - c)
    rw [show c - (x - c) = 2 * c - x by ring, show c + (x - c) = x by ring] at this
    exact this
  by_cases h : 2 * c - a < x
  · rw [indicator_of_mem (show 2 * c - x ∈ Iio a by simp only [mem_Iio]; linarith), indicator_of_mem (show x ∈ Ioi _ from h), e]
  · rw [indicator_of_notMem (show 2 * c - x ∉ Iio a by simp only [mem_Iio]; linarith), indicator_of_notMem (show x ∉ Ioi _ from h)]

omit hb in
private theorem sym_pos {c : ℝ} (hc : SymPeak b.pdf c) (x : ℝ) : 0 < b.pdf x := by
  have e : b.pdf x = b.pdf (c + |x - c|) := by
    rcases abs_cases (x - c) with ⟨h, -⟩ | ⟨h, -⟩
    · rw [h]; congr 1; ring
    · rw [h, ← hc.even]; congr 1; ring
  rw [e]
  exact lt_of_le_of_lt (b.pdf_nonneg _) (hc.falls _ _ (abs_nonneg _) (lt_add_one _))

omit hb in
private theorem parts {p q : ℝ} (h : p ≤ q) : b.law.real (Iio p) + b.law.real (Icc p q) + b.law.real (Ioi q) = 1 := by
  have e1 : b.law.real (Iio p ∪ Icc p q) = b.law.real (Iio p) + b.law.real (Icc p q) :=
    measureReal_union (by
      rw [Set.disjoint_left]; intro x hx hx'; exact absurd hx'.1 (not_le.2 hx)) measurableSet_Icc
  rw [Iio_union_Icc_eq_Iic h] at e1
  have e2 : b.law.real (Iic q ∪ Ioi q) = b.law.real (Iic q) + b.law.real (Ioi q) :=
    measureReal_union (by
      rw [Set.disjoint_left]; intro x hx hx'; exact absurd (show x ≤ q from hx) (not_le.2 hx')) measurableSet_Ioi
  rw [Iic_union_Ioi, probReal_univ] at e2
  linarith

private theorem below_inj {p q : ℝ} (h : p < q) (hpos : ∀ x, p < x → x < q → 0 < b.pdf x) :
    b.law.real (Iio p) < b.law.real (Iio q) := by
  have e1 : b.law.real (Iio p ∪ Ico p q) = b.law.real (Iio p) + b.law.real (Ico p q) :=
    measureReal_union (by
      rw [Set.disjoint_left]; intro x hx hx'; exact absurd hx'.1 (not_le.2 hx)) measurableSet_Ico
  rw [Iio_union_Ico_eq_Iio h.le] at e1
  have e2 : 0 < b.law.real (Ico p q) := by
    have : b.law.real (Ico p q) = ∫ s in p..q, b.pdf s := by
      rw [← icc_int b hb h.le]
      apply measureReal_congr
      have : NullSingletonClass b.law := ⟨fun x => b.atomless hb x⟩
      exact Ico_ae_eq_Icc
    rw [this]
    exact intervalIntegral.intervalIntegral_pos_of_pos_on (integrable_pdf b hb).intervalIntegrable
      (fun s hs => hpos s hs.1 hs.2) h
  linarith
end

/-- For a density that is symmetric and falls on both sides, `hdi` and `eti` are the same interval, and its
middle is the centre. -/
theorem hdi_is_eti_symmetric (minimize : Minimize) (hmin : Exact minimize) (b : Base) (hb : b.discrete = false) (c : ℝ)
    (hc : SymPeak b.pdf c) (ci mass : ℝ) (h0 : 0 < mass) (h1 : mass < 1) :
    let x := continuousHdi minimize b mass
    eti b true true ci none (some mass) = .ok ((x.1 : EReal), (x.2 : EReal)) ∧ x.1 + x.2 = 2 * c ∧ x.1 < x.2 := by
  obtain ⟨-, hle, -, hm, hs⟩ := hdi_continuous minimize hmin b hb mass h0 h1
  set x := continuousHdi minimize b mass with hx
  have hlt : x.1 < x.2 := by
    rcases hle.lt_or_eq with h | h
    · exact h
    · rw [icc_int b hb hle, h, intervalIntegral.integral_same] at hm; linarith
  have hv : ∫ s in x.1..x.2, b.pdf s = mass := by rw [← icc_int b hb hle, hm]
  have hF : ∀ p q : ℝ, |p - c| < |q - c| → b.pdf q < b.pdf p := by
    have e : ∀ x, b.pdf x = b.pdf (c + |x - c|) := by
      intro x
      rcases abs_cases (x - c) with ⟨h, -⟩ | ⟨h, -⟩
      · rw [h]; congr 1; ring
      · rw [h, ← hc.even]; congr 1; ring
    intro p q h
    rw [e p, e q]
    exact hc.falls _ _ (abs_nonneg _) h
  have hmid : x.1 + x.2 = 2 * c := by
    rcases lt_trichotomy (x.1 + x.2) (2 * c) with h | h | h
    · exfalso
      -- the window moved to the right; seen from the centre it is the mirror image
      have := no_better b hb h0 hle hs (c - (x.1 + x.2) / 2)
      have g := moved_gain b hb x.1 x.2 (c - (x.1 + x.2) / 2)
      have hp := intervalIntegral.intervalIntegral_pos_of_pos_on
        (f := fun s => b.pdf (s + x.2) - b.pdf (s + x.1)) (a := 0) (b := c - (x.1 + x.2) / 2)
        ((((integrable_pdf b hb).comp_add_right x.2).sub ((integrable_pdf b hb).comp_add_right x.1)).intervalIntegrable)
        (fun s hs => sub_pos.2 (hF _ _ (by
          have := hs.1; have := hs.2
          rw [abs_of_neg (show s + x.1 - c < 0 by linarith), abs_lt]
          constructor <;> linarith))) (by linarith)
      have e : ∫ s in (0 : ℝ)..(c - (x.1 + x.2) / 2), (b.pdf (s + x.1) - b.pdf (s + x.2))
          = -∫ s in (0 : ℝ)..(c - (x.1 + x.2) / 2), (b.pdf (s + x.2) - b.pdf (s + x.1)) := by
        rw [← intervalIntegral.integral_neg]; congr 1; ext s; ring
      rw [hv, e] at g
      linarith
    · exact h
    · exfalso
      have k := no_better b hb h0 hle hs (c - (x.1 + x.2) / 2)
      have := gain_pos b hb (p := x.1 + (c - (x.1 + x.2) / 2)) (q := x.2 + (c - (x.1 + x.2) / 2))
        (t := (x.1 + x.2) / 2 - c) (by linarith) (fun s s0 s1 => hF _ _ (by
          rw [abs_of_pos (show 0 < s + (x.2 + (c - (x.1 + x.2) / 2)) - c by linarith), abs_lt]
          constructor <;> linarith))
      rw [show x.1 + (c - (x.1 + x.2) / 2) + ((x.1 + x.2) / 2 - c) = x.1 by ring,
        show x.2 + (c - (x.1 + x.2) / 2) + ((x.1 + x.2) / 2 - c) = x.2 by ring, hv] at this
      linarith
  obtain ⟨lo, hi, he, l1, l2, -⟩ := eti_exact b hb ci mass h0 h1
  have hsym := sym_tail b hb hc x.1
  rw [show 2 * c - x.1 = x.2 by linarith] at hsym
  have hp := parts b hle
  have hlo : lo = x.1 := by
    rcases lt_trichotomy lo x.1 with h | h | h
    · have := below_inj b hb h fun y _ _ => sym_pos b hc y
      linarith
    · exact h
    · have := below_inj b hb h fun y _ _ => sym_pos b hc y
      linarith
  have hhi : hi = x.2 := by
    have g := sym_tail b hb hc (2 * c - hi)
    rw [show 2 * c - (2 * c - hi) = hi by ring] at g
    rcases lt_trichotomy (2 * c - hi) x.1 with h | h | h
    · have := below_inj b hb h fun y _ _ => sym_pos b hc y
      linarith
    · linarith
    · have := below_inj b hb h fun y _ _ => sym_pos b hc y
      linarith
  exact ⟨by rw [he, hlo, hhi], hmid, hlt⟩

/-- For a density that falls from the lower end of the support, `hdi` starts there and ends at the quantile of
the mass asked for; `eti` is another interval, further right at both ends and strictly longer. -/
theorem hdi_from_lower_end (minimize : Minimize) (hmin : Exact minimize) (b : Base) (hb : b.discrete = false) (a : ℝ)
    (ha : b.lo = (a : EReal)) (hf : FallsFrom b.pdf a) (ci mass : ℝ) (h0 : 0 < mass) (h1 : mass < 1) :
    let x := continuousHdi minimize b mass
    x.1 = a ∧ b.ppf mass = (x.2 : EReal) ∧
      ∃ lo hi : ℝ, eti b true true ci none (some mass) = .ok ((lo : EReal), (hi : EReal)) ∧
        x.1 < lo ∧ x.2 < hi ∧ x.2 - x.1 < hi - lo := by
  obtain ⟨hlo, hle, -, hm, hs⟩ := hdi_continuous minimize hmin b hb mass h0 h1
  set x := continuousHdi minimize b mass with hx
  have hlt : x.1 < x.2 := by
    rcases hle.lt_or_eq with h | h
    · exact h
    · rw [icc_int b hb hle, h, intervalIntegral.integral_same] at hm; linarith
  have hv : ∫ s in x.1..x.2, b.pdf s = mass := by rw [← icc_int b hb hle, hm]
  have hax : a ≤ x.1 := by rw [ha] at hlo; exact_mod_cast hlo
  have hx1 : x.1 = a := by
    rcases hax.lt_or_eq with h | h
    · exfalso
      have k := no_better b hb h0 hle hs (a - x.1)
      have := gain_pos b hb (p := x.1 + (a - x.1)) (q := x.2 + (a - x.1)) (t := x.1 - a) (by linarith)
        (fun s s0 s1 => hf _ _ (by linarith) (by linarith))
      rw [show x.1 + (a - x.1) + (x.1 - a) = x.1 by ring, show x.2 + (a - x.1) + (x.1 - a) = x.2 by ring, hv] at this
      linarith
    · exact h.symm
  have hzero : b.law.real (Iio a) = 0 := by
    rw [measureReal_def, ENNReal.toReal_eq_zero_iff]
    left
    refine measure_mono_null ?_ (ae_iff.1 b.in_support)
    intro y hy h
    have := h.1
    rw [ha] at this
    exact absurd (show a ≤ y by exact_mod_cast this) (not_le.2 hy)
  have hfpos : ∀ y, a < y → 0 < b.pdf y := fun y hy => lt_of_le_of_lt (b.pdf_nonneg _) (hf y (y + 1) hy (by linarith))
  have hIio : ∀ y, b.law.real (Iio y) = b.law.real (Iic y) := by
    intro y
    apply measureReal_congr
    have : NullSingletonClass b.law := ⟨fun x => b.atomless hb x⟩
    exact Iio_ae_eq_Iic
  have hpx : b.law.real (Iio x.2) = mass := by
    have e1 : b.law.real (Iio x.1 ∪ Icc x.1 x.2) = b.law.real (Iio x.1) + b.law.real (Icc x.1 x.2) :=
      measureReal_union (by
        rw [Set.disjoint_left]; intro x hx hx'; exact absurd hx'.1 (not_le.2 hx)) measurableSet_Icc
    rw [Iio_union_Icc_eq_Iic hle, hm, hx1, hzero] at e1
    rw [hIio, e1, zero_add]
  obtain ⟨lo, hi, he, l1, l2, l3⟩ := eti_exact b hb ci mass h0 h1
  have hlo' : a < lo := by
    by_contra h
    push Not at h
    have := measureReal_mono (μ := b.law) (Iio_subset_Iio h)
    rw [hzero] at this
    linarith
  have hlohi : lo ≤ hi := by
    by_contra h
    push Not at h
    rw [Icc_eq_empty (not_le.2 h)] at l3
    simp at l3
    linarith
  have hhi : x.2 < hi := by
    by_contra h
    push Not at h
    have k := measureReal_mono (μ := b.law) (Iio_subset_Iio h)
    have := parts b hlohi
    rw [hpx, hIio] at k
    have e1 : b.law.real (Iio lo ∪ Icc lo hi) = b.law.real (Iio lo) + b.law.real (Icc lo hi) :=
      measureReal_union (by
        rw [Set.disjoint_left]; intro x hx hx'; exact absurd hx'.1 (not_le.2 hx)) measurableSet_Icc
    rw [Iio_union_Icc_eq_Iic hlohi] at e1
    linarith
  refine ⟨hx1, ?_, lo, hi, he, by linarith, hhi, ?_⟩
  · apply le_antisymm
    · rw [b.ppf_inverse mass h0 h1.le, ← hIio, hpx]
    · obtain ⟨p, hp⟩ := ppf_real b (q := mass) h0 h1
      rw [hp]
      have k := (b.ppf_inverse mass h0 h1.le p).1 hp.le
      by_contra h
      have h' : p < x.2 := by
        push Not at h; exact_mod_cast h
      rw [← hIio] at k
      have hap : a ≤ p := by
        by_contra h2
        push Not at h2
        have := measureReal_mono (μ := b.law) (Iio_subset_Iio h2.le)
        linarith
      have := below_inj b hb h' fun y y0 _ => hfpos y (by linarith)
      linarith
  · have k := hs lo hi hlohi l3.ge
    rcases k.lt_or_eq with h | h
    · exact h
    · exfalso
      have g := gain_pos b hb (p := x.1) (q := x.2) (t := lo - x.1) (by linarith)
        (fun s s0 s1 => hf _ _ (by linarith) (by linarith))
      rw [show x.1 + (lo - x.1) = lo by ring, show x.2 + (lo - x.1) = hi by linarith, hv, ← icc_int b hb hlohi, l3] at g
      exact lt_irrefl _ g

/-! ## The families -/

private theorem peak_sym {F : PeakFam} (hF : F.Ok) (m : ℝ) {s : ℝ} (hs : 0 < s) : SymPeak (F.pdf m s) m := by
  have hg := peak_fam F hF
  rw [fam_moved F m hs]
  constructor
  · intro t
    unfold moved
    rw [show (m - t - m) / s = -((m + t - m) / s) by ring, hg.even]
  · intro x y hx hxy
    unfold moved
    rw [show m + y - m = y by ring, show m + x - m = x by ring]
    exact div_lt_div_of_pos_right (hg.falls _ _ (by positivity) (div_lt_div_of_pos_right hxy hs)) hs

private theorem half_falls {F : HalfFam} (hF : F.Ok) {s : ℝ} (hs : 0 < s) : FallsFrom (F.pdf s) 0 := by
  have hg := unfolded_peak F hF
  rw [half_folded F hF hs]
  intro x y hx hxy
  unfold folded
  rw [if_neg (by linarith), if_neg (by linarith)]
  have := hg.falls (x / s) (y / s) (by positivity) (div_lt_div_of_pos_right hxy hs)
  exact div_lt_div_of_pos_right (by linarith) hs

private theorem pareto_falls {a m : ℝ} (ha : 0 < a) (hm : 0 < m) : FallsFrom (paretoPdf a m) m := by
  intro x y hx hxy
  unfold paretoPdf
  rw [if_pos (by linarith), if_pos hx.le]
  have h0 : 0 < x := hm.trans hx
  have h1 : 0 < x ^ (a + 1) := Real.rpow_pos_of_pos h0 _
  exact div_lt_div_of_pos_left (mul_pos ha (Real.rpow_pos_of_pos hm _)) h1
    (Real.rpow_lt_rpow h0.le hxy (by linarith))

/-- Normal, Laplace, Logistic, Cauchy and StudentT: both methods report the same interval, centred at the location -/
theorem peak_intervals (minimize : Minimize) (hmin : Exact minimize) (F : PeakFam) (hF : F.Ok) (m s : ℝ) (hs : 0 < s)
    (b : Base) (hb : b.discrete = false) (hpdf : b.pdf = F.pdf m s) (ci mass : ℝ) (h0 : 0 < mass) (h1 : mass < 1) :
    let x := continuousHdi minimize b mass
    eti b true true ci none (some mass) = .ok ((x.1 : EReal), (x.2 : EReal)) ∧ x.1 + x.2 = 2 * m ∧ x.1 < x.2 :=
  hdi_is_eti_symmetric minimize hmin b hb m (hpdf ▸ peak_sym hF m hs) ci mass h0 h1

/-- Exponential, HalfNormal, HalfCauchy and HalfStudentT: `hdi` starts at zero, `eti` does not and is longer -/
theorem half_intervals (minimize : Minimize) (hmin : Exact minimize) (F : HalfFam) (hF : F.Ok) (s : ℝ) (hs : 0 < s)
    (b : Base) (hb : b.discrete = false) (hpdf : b.pdf = F.pdf s) (hlo : b.lo = ((0 : ℝ) : EReal)) (ci mass : ℝ)
    (h0 : 0 < mass) (h1 : mass < 1) :
    let x := continuousHdi minimize b mass
    x.1 = 0 ∧ b.ppf mass = (x.2 : EReal) ∧
      ∃ lo hi : ℝ, eti b true true ci none (some mass) = .ok ((lo : EReal), (hi : EReal)) ∧
        x.1 < lo ∧ x.2 < hi ∧ x.2 - x.1 < hi - lo :=
  hdi_from_lower_end minimize hmin b hb 0 hlo (hpdf ▸ half_falls hF hs) ci mass h0 h1

/-- Pareto: `hdi` starts at `m`, `eti` does not and is longer -/
theorem pareto_intervals (minimize : Minimize) (hmin : Exact minimize) (a m : ℝ) (ha : 0 < a) (hm : 0 < m)
    (b : Base) (hb : b.discrete = false) (hpdf : b.pdf = paretoPdf a m) (hlo : b.lo = (m : EReal)) (ci mass : ℝ)
    (h0 : 0 < mass) (h1 : mass < 1) :
    let x := continuousHdi minimize b mass
    x.1 = m ∧ b.ppf mass = (x.2 : EReal) ∧
      ∃ lo hi : ℝ, eti b true true ci none (some mass) = .ok ((lo : EReal), (hi : EReal)) ∧
        x.1 < lo ∧ x.2 < hi ∧ x.2 - x.1 < hi - lo :=
  hdi_from_lower_end minimize hmin b hb m hlo (hpdf ▸ pareto_falls ha hm) ci mass h0 h1

/-! ## There are such distributions -/

private theorem peak_prob {F : PeakFam} (hF : F.Ok) (m : ℝ) {s : ℝ} (hs : 0 < s) :
    IsProbabilityMeasure (volume.withDensity fun x => ENNReal.ofReal (F.pdf m s x)) := by
  have hg := peak_fam F hF
  have hn : ∀ x, 0 ≤ moved (F.pdf 0 1) m s x := fun x => div_nonneg (hg.nonneg _) hs.le
  rw [fam_moved F m hs]
  constructor
  rw [withDensity_apply _ MeasurableSet.univ, Measure.restrict_univ, ← ofReal_integral_eq_lintegral_ofReal
    (moved_int hg m hs) (ae_of_all _ hn)]
  have : ∫ x, moved (F.pdf 0 1) m s x = 1 := by
    unfold moved
    rw [integral_div, integral_sub_right_eq_self (fun x => F.pdf 0 1 (x / s)) m, Measure.integral_comp_div (F.pdf 0 1) s,
      hg.one, abs_of_pos hs, smul_eq_mul, mul_one, div_self hs.ne']
  rw [this, ENNReal.ofReal_one]

theorem peak_base_exists (F : PeakFam) (hF : F.Ok) (m s : ℝ) (hs : 0 < s) :
    ∃ b : Base, b.discrete = false ∧ b.pdf = F.pdf m s := by
  have := peak_prob hF m hs
  have hg := peak_fam F hF
  exact ⟨densityBase (F.pdf m s) (by rw [fam_moved F m hs]; exact moved_meas hg m s)
    (by rw [fam_moved F m hs]; exact fun x => div_nonneg (hg.nonneg _) hs.le) ⊥ ⊤
    (ae_of_all _ fun y => ⟨bot_le, le_top⟩), rfl, rfl⟩

theorem half_base_exists (F : HalfFam) (hF : F.Ok) (s : ℝ) (hs : 0 < s) :
    ∃ b : Base, b.discrete = false ∧ b.pdf = F.pdf s ∧ b.lo = ((0 : ℝ) : EReal) := by
  have hg := unfolded_peak F hF
  have : IsProbabilityMeasure (volume.withDensity fun x => ENNReal.ofReal (F.pdf s x)) := by
    rw [half_folded F hF hs]; exact folded_prob hg hs
  refine ⟨densityBase (F.pdf s) (by rw [half_folded F hF hs]; exact folded_meas hg s)
    (by rw [half_folded F hF hs]; exact folded_nonneg hg hs) ((0 : ℝ) : EReal) ⊤ ?_, rfl, rfl, rfl⟩
  have h : ∀ᵐ y ∂(volume.withDensity fun x => ENNReal.ofReal (F.pdf s x)), (0 : ℝ) ≤ y := by
    rw [ae_iff, show {y : ℝ | ¬ (0 : ℝ) ≤ y} = Iio 0 by ext y; simp, withDensity_apply _ measurableSet_Iio,
      setLIntegral_congr_fun (g := fun _ => 0) measurableSet_Iio (by
        intro y hy
        simp only [half_folded F hF hs, folded]
        rw [if_pos (show y < 0 from hy), ENNReal.ofReal_zero])]
    simp
  filter_upwards [h] with y hy
  exact ⟨by exact_mod_cast hy, le_top⟩

example (minimize : Minimize) (hmin : Exact minimize) : ∃ b : Base, b.pdf = normalPdf 3 2 ∧
    (continuousHdi minimize b 0.94).1 + (continuousHdi minimize b 0.94).2 = 2 * 3 := by
  obtain ⟨b, hb, hp⟩ := peak_base_exists .normal trivial 3 2 (by norm_num)
  exact ⟨b, hp, (peak_intervals minimize hmin .normal trivial 3 2 (by norm_num) b hb hp 0.94 0.94 (by norm_num)
    (by norm_num)).2.1⟩

example (minimize : Minimize) (hmin : Exact minimize) : ∃ b : Base, b.pdf = halfNormalPdf 2 ∧
    (continuousHdi minimize b 0.94).1 = 0 := by
  obtain ⟨b, hb, hp, hl⟩ := half_base_exists .halfNormal trivial 2 (by norm_num)
  exact ⟨b, hp, (half_intervals minimize hmin .halfNormal trivial 2 (by norm_num) b hb hp hl 0.94 0.94 (by norm_num)
    (by norm_num)).1⟩

theorem pareto_base_exists (a m : ℝ) (ha : 0 < a) (hm : 0 < m) :
    ∃ b : Base, b.discrete = false ∧ b.pdf = paretoPdf a m ∧ b.lo = (m : EReal) := by
  have : IsProbabilityMeasure (volume.withDensity fun x => ENNReal.ofReal (paretoPdf a m x)) :=
    Verif.Lemmas.ParetoBest.pdf_prob ha hm
  refine ⟨densityBase (paretoPdf a m) (Verif.Lemmas.ParetoBest.pdf_meas a m) (Verif.Lemmas.ParetoBest.pdf_nonneg ha hm)
    (m : EReal) ⊤ ?_, rfl, rfl, rfl⟩
  have h : ∀ᵐ y ∂(volume.withDensity fun x => ENNReal.ofReal (paretoPdf a m x)), m ≤ y := by
    rw [ae_iff, show {y : ℝ | ¬ m ≤ y} = Iio m by ext y; simp, withDensity_apply _ measurableSet_Iio,
      setLIntegral_congr_fun (g := fun _ => 0) measurableSet_Iio (by
        intro y hy
        simp only [paretoPdf]
        rw [if_neg (not_le.2 (show y < m from hy)), ENNReal.ofReal_zero])]
    simp
  filter_upwards [h] with y hy
  exact ⟨by exact_mod_cast hy, le_top⟩

example (minimize : Minimize) (hmin : Exact minimize) : ∃ b : Base, b.pdf = paretoPdf 3 2 ∧
    (continuousHdi minimize b 0.94).1 = 2 := by
  obtain ⟨b, hb, hp, hl⟩ := pareto_base_exists 3 2 (by norm_num) (by norm_num)
  exact ⟨b, hp, (pareto_intervals minimize hmin 3 2 (by norm_num) (by norm_num) b hb hp hl 0.94 0.94 (by norm_num)
    (by norm_num)).1⟩

/-! ## Uniform -/

/-- for Uniform every interval inside the support with the right length solves the minimisation -/
theorem uniform_solved (l u : ℝ) (h : l < u) (mass : ℝ) (h0 : 0 < mass) (p : ℝ) (hp : l ≤ p)
    (hq : p + mass * (u - l) ≤ u) :
    Solved intervalShort (intervalLoss (fun x => (unif l u h).cdf x) 0 mass) ((unif l u h).lo, (unif l u h).hi)
      (p, p + mass * (u - l)) := by
  have hul : 0 < u - l := by linarith
  have hml : 0 < mass * (u - l) := by positivity
  have hreal : ∀ s t : ℝ, s ≤ t → (unif l u h).cdf t - (unif l u h).cdf s = (unif l u h).law.real (Icc s t) := by
    intro s t hst
    rw [cdf_gap _ rfl hst, icc_int _ rfl hst]
  refine ⟨⟨?_, ?_, ?_, ?_, ?_⟩, ?_⟩
  · have e := hreal p (p + mass * (u - l)) (by linarith)
    rw [unif_real l u h _ measurableSet_Icc, Icc_inter_Icc, max_eq_left hp, min_eq_left hq,
      Real.volume_real_Icc_of_le (by linarith)] at e
    simp only [intervalLoss]
    rw [e]
    field_simp
    ring
  · exact EReal.coe_le_coe_iff.2 hp
  · exact EReal.coe_le_coe_iff.2 (by linarith)
  · exact EReal.coe_le_coe_iff.2 (by linarith)
  · exact EReal.coe_le_coe_iff.2 hq
  · rintro z ⟨hz, -⟩
    unfold intervalShort
    rw [if_neg (by simp only [not_lt]; linarith)]
    by_cases hlt : z.2 < z.1
    · rw [if_pos hlt]; exact le_top
    · rw [if_neg hlt]
      push Not at hlt
      refine EReal.coe_le_coe_iff.2 ?_
      simp only [intervalLoss] at hz
      have e := hreal z.1 z.2 hlt
      rw [unif_real l u h _ measurableSet_Icc] at e
      have k : volume.real (Icc z.1 z.2 ∩ Icc l u) ≤ z.2 - z.1 := by
        rw [← Real.volume_real_Icc_of_le hlt]
        exact measureReal_mono inter_subset_left (by simp)
      have : mass = volume.real (Icc z.1 z.2 ∩ Icc l u) / (u - l) := by linarith
      rw [this, div_mul_cancel₀ _ hul.ne']
      simp only
      linarith

/-- Uniform: every interval inside the support with the length asked for is the `hdi` of some optimiser that
finds the minimum, so the two methods need not agree and `hdi` is not determined. -/
theorem uniform_hdi_any (l u : ℝ) (h : l < u) (mass : ℝ) (h0 : 0 < mass) (p : ℝ) (hp : l ≤ p)
    (hq : p + mass * (u - l) ≤ u) :
    ∃ minimize, Exact minimize ∧ continuousHdi minimize (unif l u h) mass = (p, p + mass * (u - l)) := by
  classical
  have hsol := uniform_solved l u h mass h0 p hp hq
  refine ⟨fun o k B _ => if Solved o k B (p, p + mass * (u - l)) then (p, p + mass * (u - l))
    else if h : ∃ x, Solved o k B x then h.choose else (0, 0), ?_, ?_⟩
  · intro o k B x0 hx
    by_cases h1 : Solved o k B (p, p + mass * (u - l))
    · simp only [if_pos h1]; exact h1
    · simp only [if_neg h1, dif_pos hx]; exact hx.choose_spec
  · unfold continuousHdi
    simp only [if_pos hsol]

/-- the 50% interval of Uniform(0, 1) may be reported as [0, 0.5] -/
example : ∃ minimize, Exact minimize ∧ continuousHdi minimize (unif 0 1 (by norm_num)) 0.5 = (0, 0 + 0.5 * (1 - 0)) :=
  uniform_hdi_any 0 1 (by norm_num) 0.5 (by norm_num) 0 le_rfl (by norm_num)

end Verif.Props
