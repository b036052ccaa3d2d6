import Verif.Model.Modifier
import Verif.Lemmas.Interval
import Mathlib.MeasureTheory.Integral.IntervalIntegral.Basic
import Mathlib.MeasureTheory.Integral.DominatedConvergence
import Mathlib.MeasureTheory.Group.Integral
import Mathlib.MeasureTheory.Measure.Haar.Unique
import Mathlib.MeasureTheory.Measure.Haar.OfBasis
import Mathlib.Topology.Order.LeftRightNhds
import Mathlib.Tactic

/-!
# Shortest intervals of unimodal densities
-/

namespace Verif.Hdi

open MeasureTheory Set

/-- increases up to `m`, decreases from there -/
def Unimodal (f : ℝ → ℝ) (m : ℝ) : Prop := MonotoneOn f (Iic m) ∧ AntitoneOn f (Ici m)

theorem Unimodal.between {f : ℝ → ℝ} {m : ℝ} (h : Unimodal f m) {a s c : ℝ} (h1 : a ≤ s) (h2 : s ≤ c) :
    min (f a) (f c) ≤ f s := by
  rcases le_total s m with hs | hs
  · exact (min_le_left _ _).trans (h.1 (h1.trans hs) hs h1)
  · exact (min_le_right _ _).trans (h.2 hs (hs.trans h2) h2)

theorem Unimodal.left {f : ℝ → ℝ} {m : ℝ} (h : Unimodal f m) {x y : ℝ} (hxy : x < y) (hf : f x < f y)
    {s : ℝ} (hs : s ≤ x) : f s ≤ f x := by
  have hm : x < m := by
    by_contra hc
    push Not at hc
    exact absurd (h.2 hc (hc.trans hxy.le) hxy.le) (not_le.2 hf)
  exact h.1 (hs.trans hm.le) hm.le hs

theorem Unimodal.neg {f : ℝ → ℝ} {m : ℝ} (h : Unimodal f m) : Unimodal (fun s => f (-s)) (-m) := by
  refine ⟨fun a ha b hb hab => ?_, fun a ha b hb hab => ?_⟩
  · simp only [mem_Iic] at ha hb
    exact h.2 (by simp only [mem_Ici]; linarith) (by simp only [mem_Ici]; linarith) (by linarith)
  · simp only [mem_Ici] at ha hb
    exact h.1 (by simp only [mem_Iic]; linarith) (by simp only [mem_Iic]; linarith) (by linarith)

/-- moving a window towards a place of larger density increases its mass -/
theorem window_right {f : ℝ → ℝ} {m : ℝ} (hi' : Integrable f) (hu : Unimodal f m) {lo hi x y : ℝ}
    (h1 : lo < x) (h2 : x < hi) (h3 : hi < y) (hc : ContinuousAt f y) (hf : f x < f y) :
    ∃ t > 0, hi + t ≤ y ∧ ∫ s in lo..hi, f s < ∫ s in (lo + t)..(hi + t), f s := by
  have hii : ∀ a b, IntervalIntegrable f volume a b := fun a b => hi'.intervalIntegrable
  have hxy : x < y := h2.trans h3
  set S : Set ℝ := {s | x ≤ s ∧ s ≤ y ∧ f s ≤ f x} with hS
  have hxS : x ∈ S := ⟨le_rfl, hxy.le, le_rfl⟩
  have hbd : BddAbove S := ⟨y, fun s hs => hs.2.1⟩
  set a := sSup S with ha
  have hxa : x ≤ a := le_csSup hbd hxS
  have hay : a < y := by
    have hev := hc.eventually (lt_mem_nhds hf)
    obtain ⟨l, hl, hl'⟩ := exists_Ioc_subset_of_mem_nhds hev ⟨x, hxy⟩
    have : a ≤ l := by
      apply csSup_le ⟨x, hxS⟩
      intro s hs
      by_contra hsl
      push Not at hsl
      exact absurd hs.2.2 (not_le.2 (hl' ⟨hsl, hs.2.1⟩))
    exact this.trans_lt hl
  have habove : ∀ s, a < s → s ≤ y → f x < f s := by
    intro s hs hsy
    by_contra hcon
    push Not at hcon
    exact absurd (le_csSup hbd ⟨hxa.trans hs.le, hsy, hcon⟩) (not_le.2 hs)
  have hbelow : ∀ s, s < a → f s ≤ f x := by
    intro s hs
    rcases le_or_gt s x with hsx | hsx
    · exact hu.left hxy hf hsx
    · obtain ⟨s', hs', hss'⟩ := exists_lt_of_lt_csSup ⟨x, hxS⟩ hs
      by_contra hcon
      push Not at hcon
      have := hu.between hss'.le hs'.2.1
      have hmin : f x < min (f s) (f y) := lt_min hcon hf
      exact absurd (hmin.trans_le this) (not_lt.2 hs'.2.2)
  set L := hi - lo with hL
  set t := min (a - lo) (y - hi) with ht
  have ht0 : 0 < t := lt_min (by linarith) (by linarith)
  have hta : lo + t ≤ a := by have := min_le_left (a - lo) (y - hi); linarith
  have hty : hi + t ≤ y := by have := min_le_right (a - lo) (y - hi); linarith
  refine ⟨t, ht0, hty, ?_⟩
  have hshift : ∫ s in lo..(lo + t), f (s + L) = ∫ s in hi..(hi + t), f s := by
    rw [intervalIntegral.integral_comp_add_right]
    congr 1 <;> simp only [hL] <;> ring
  have hsi : ∀ p q, IntervalIntegrable (fun s => f (s + L)) volume p q := fun p q =>
    (hi'.comp_add_right L).intervalIntegrable
  have hdi : ∀ p q, IntervalIntegrable (fun s => f (s + L) - f s) volume p q := fun p q =>
    (hsi p q).sub (hii p q)
  set c := max lo (a - L) with hcdef
  have hlc : lo ≤ c := le_max_left _ _
  have hct : c < lo + t := by
    apply max_lt (by linarith)
    have : a - lo - L < t := by
      apply lt_min <;> simp only [hL] <;> linarith
    linarith
  have hge : ∀ s, lo ≤ s → s < lo + t → f x ≤ f (s + L) := by
    intro s hs1 hs2
    have hb := hu.between (a := x) (s := s + L) (c := y) (by simp only [hL]; linarith)
      (by simp only [hL]; linarith)
    rwa [min_eq_left hf.le] at hb
  have e1 : 0 ≤ ∫ s in lo..c, (f (s + L) - f s) := by
    apply intervalIntegral.integral_nonneg hlc
    intro s hs
    have := hge s hs.1 (hs.2.trans_lt hct)
    have := hbelow s ((hs.2.trans_lt hct).trans_le hta)
    linarith
  have e2 : 0 < ∫ s in c..(lo + t), (f (s + L) - f s) := by
    apply intervalIntegral.intervalIntegral_pos_of_pos_on (hdi _ _) _ hct
    intro s hs
    have h5 := hbelow s (hs.2.trans_le hta)
    have h6 : a < s + L := by
      have : a - L < s := (le_max_right lo (a - L)).trans_lt hs.1
      linarith
    have h7 := habove (s + L) h6 (by
      have := hs.2
      simp only [hL]; linarith)
    linarith
  have e3 : 0 < ∫ s in lo..(lo + t), (f (s + L) - f s) := by
    rw [← intervalIntegral.integral_add_adjacent_intervals (hdi lo c) (hdi c (lo + t))]
    linarith
  rw [intervalIntegral.integral_sub (hsi _ _) (hii _ _), hshift] at e3
  have e4 := intervalIntegral.integral_add_adjacent_intervals (hii lo hi) (hii hi (hi + t))
  have e5 := intervalIntegral.integral_add_adjacent_intervals (hii lo (lo + t)) (hii (lo + t) (hi + t))
  linarith

theorem window_left {f : ℝ → ℝ} {m : ℝ} (hi' : Integrable f) (hu : Unimodal f m) {lo hi x y : ℝ}
    (h1 : lo < x) (h2 : x < hi) (h3 : y < lo) (hc : ContinuousAt f y) (hf : f x < f y) :
    ∃ t > 0, y ≤ lo - t ∧ ∫ s in lo..hi, f s < ∫ s in (lo - t)..(hi - t), f s := by
  have hc' : ContinuousAt (fun s => f (-s)) (-y) := by
    apply ContinuousAt.comp (f := fun s => -s) (g := f)
    · simpa using hc
    · exact continuous_neg.continuousAt
  obtain ⟨t, ht, hty, hlt⟩ := window_right (f := fun s => f (-s)) (m := -m) hi'.comp_neg hu.neg
    (lo := -hi) (hi := -lo) (x := -x) (y := -y) (by linarith) (by linarith) (by linarith) hc'
    (by simpa using hf)
  refine ⟨t, ht, by linarith, ?_⟩
  simp only [intervalIntegral.integral_comp_neg] at hlt
  rw [neg_neg, neg_neg, neg_add, neg_add, neg_neg, neg_neg] at hlt
  exact hlt

/-- an interval with more than the requested mass contains a shorter one with exactly that mass -/
theorem shrink {f : ℝ → ℝ} (hi' : Integrable f) {a c mass : ℝ} (hm : 0 < mass) (hac : a ≤ c)
    (h : mass < ∫ s in a..c, f s) : ∃ c', a ≤ c' ∧ c' < c ∧ ∫ s in a..c', f s = mass := by
  have hii : ∀ a b, IntervalIntegrable f volume a b := fun a b => hi'.intervalIntegrable
  have hcont : Continuous fun u => ∫ s in a..u, f s := intervalIntegral.continuous_primitive hii a
  obtain ⟨c', hc', he⟩ := intermediate_value_Icc hac hcont.continuousOn
    (show mass ∈ Icc (∫ s in a..a, f s) (∫ s in a..c, f s) by
      rw [intervalIntegral.integral_same]; exact ⟨hm.le, h.le⟩)
  refine ⟨c', hc'.1, lt_of_le_of_ne hc'.2 ?_, he⟩
  rintro rfl
  exact absurd he (ne_of_gt h)

end Verif.Hdi
