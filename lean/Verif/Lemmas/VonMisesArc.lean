import Verif.Spec.Arc
import Verif.Spec.Interval
import Verif.Lemmas.VonMisesMass
import Mathlib.Algebra.Order.ToIntervalMod
import Mathlib.Tactic

/-!
# The mass of an arc under VonMises (C154)
-/

namespace Verif.VMArc
open MeasureTheory Set Verif.Spec Verif.VMMass intervalIntegral Filter Topology

theorem window_int (k h c : ℝ) (n : ℤ) : window k h (c + n * (2 * Real.pi)) = window k h c := by
  have hp : Function.Periodic (window k h) (2 * Real.pi) := window_period k h
  exact hp.int_mul n c

/-- a window has most mass exactly at the mode -/
theorem window_max {k h : ℝ} (hk : 0 < k) (h0 : 0 < h) (h1 : h < Real.pi) (c : ℝ) :
    window k h c ≤ window k h 0 ∧ (window k h c = window k h 0 → ∃ n : ℤ, c = n * (2 * Real.pi)) := by
  have hpi := Real.pi_pos
  set c' := toIocMod Real.two_pi_pos (-Real.pi) c with hc'
  set n := toIocDiv Real.two_pi_pos (-Real.pi) c with hn
  have e : c = c' + n * (2 * Real.pi) := by
    have := toIocMod_add_toIocDiv_zsmul Real.two_pi_pos (-Real.pi) c
    rw [zsmul_eq_mul] at this
    exact this.symm
  have hm : c' ∈ Ioc (-Real.pi) Real.pi := by
    have := toIocMod_mem_Ioc Real.two_pi_pos (-Real.pi) c
    rwa [show -Real.pi + 2 * Real.pi = Real.pi by ring] at this
  have hw : window k h c = window k h |c'| := by
    rw [e, window_int]
    rcases abs_choice c' with hh | hh <;> rw [hh]
    rw [window_even]
  have habs : |c'| ≤ Real.pi := abs_le.2 ⟨hm.1.le, hm.2⟩
  by_cases hz : c' = 0
  · rw [hw, hz, abs_zero]
    exact ⟨le_rfl, fun _ => ⟨n, by rw [e, hz, zero_add]⟩⟩
  · have := window_anti hk h0 h1 (left_mem_Icc.2 hpi.le) (mem_Icc.2 ⟨abs_nonneg _, habs⟩) (abs_pos.2 hz)
    rw [hw]
    exact ⟨this.le, fun h => absurd h this.ne⟩

theorem inner_mono (k : ℝ) : StrictMono fun h => VMMass.inner h k := by
  intro h h' hh
  have : VMMass.inner h' k - VMMass.inner h k = ∫ t in h..h', bump k t := by
    unfold VMMass.inner
    exact integral_interval_sub_left (bump_int _ _ _) (bump_int _ _ _)
  have p : 0 < ∫ t in h..h', bump k t := intervalIntegral_pos_of_pos (bump_int _ _ _) (bump_pos k) hh
  simp only
  linarith

theorem scale_pos (k : ℝ) : 0 < 2 * Real.pi * besselI0 k := by
  have := besselI0_pos k
  have := Real.pi_pos
  positivity

theorem law_ac (mu k : ℝ) : vonMisesLaw mu k ≪ volume := by
  unfold vonMisesLaw ofPdf
  exact withDensity_absolutelyContinuous _ _

theorem law_out (mu k : ℝ) : vonMisesLaw mu k (Ioc (-Real.pi) Real.pi)ᶜ = 0 := by
  unfold vonMisesLaw ofPdf
  rw [withDensity_apply _ measurableSet_Ioc.compl, setLIntegral_eq_zero_iff measurableSet_Ioc.compl
    ((VMLaw.meas mu k).ennreal_ofReal)]
  filter_upwards with x hx
  simp [indicator_of_notMem hx]

theorem law_congr {mu k : ℝ} {s t : Set ℝ} (h : s =ᵐ[volume] t) : (vonMisesLaw mu k).real s = (vonMisesLaw mu k).real t :=
  measureReal_congr ((law_ac mu k).ae_eq h)

/-- only the part on the circle counts -/
theorem law_inter (mu k : ℝ) (s : Set ℝ) : (vonMisesLaw mu k).real s = (vonMisesLaw mu k).real (s ∩ Ioc (-Real.pi) Real.pi) := by
  refine measureReal_congr ?_
  have h : ∀ᵐ x ∂vonMisesLaw mu k, x ∈ Ioc (-Real.pi) Real.pi := by
    rw [ae_iff]
    exact law_out mu k
  filter_upwards [h] with x hx
  apply propext
  constructor
  · intro hs; exact ⟨hs, hx⟩
  · intro hs; exact hs.1

theorem arcLength_bounds {a b : ℝ} (ha : a ∈ Ioc (-Real.pi) Real.pi) (hb : b ∈ Ioc (-Real.pi) Real.pi) :
    0 ≤ arcLength a b ∧ arcLength a b < 2 * Real.pi := by
  obtain ⟨a1, a2⟩ := ha
  obtain ⟨b1, b2⟩ := hb
  unfold arcLength
  split_ifs with h
  · constructor <;> linarith
  · push Not at h
    constructor <;> linarith

/-- the mass of an arc -/
theorem arc_mass {mu k a b : ℝ} (ha : a ∈ Ioc (-Real.pi) Real.pi) (hb : b ∈ Ioc (-Real.pi) Real.pi) :
    (vonMisesLaw mu k).real (arc a b) = window k (arcLength a b / 2) (a + arcLength a b / 2 - mu) / (2 * Real.pi * besselI0 k) := by
  have hpi := Real.pi_pos
  have hp := VMLaw.prob mu k
  by_cases h : a ≤ b
  · have e : arc a b = Icc a b := by
      ext x
      simp only [arc, mem_ofPred_eq, mem_Icc, mem_Ioc]
      constructor
      · rintro ⟨-, ⟨-, h1, h2⟩ | ⟨h1, -⟩⟩
        · exact ⟨h1, h2⟩
        · exact absurd h (not_le.2 h1)
      · rintro ⟨h1, h2⟩
        exact ⟨⟨ha.1.trans_le h1, h2.trans hb.2⟩, Or.inl ⟨h, h1, h2⟩⟩
    rw [e, mass_window ha.1.le h hb.2, arcLength, if_pos h]
    congr 2
    ring
  · push Not at h
    have e : arc a b = Icc a Real.pi ∪ Ioc (-Real.pi) b := by
      ext x
      simp only [arc, mem_ofPred_eq, mem_Icc, mem_Ioc, mem_union]
      constructor
      · rintro ⟨⟨h1, h2⟩, ⟨h3, -⟩ | ⟨-, h3 | h3⟩⟩
        · exact absurd h (not_lt.2 h3)
        · exact Or.inl ⟨h3, h2⟩
        · exact Or.inr ⟨h1, h3⟩
      · rintro (⟨h1, h2⟩ | ⟨h1, h2⟩)
        · exact ⟨⟨ha.1.trans_le h1, h2⟩, Or.inr ⟨h, Or.inl h1⟩⟩
        · exact ⟨⟨h1, h2.trans hb.2⟩, Or.inr ⟨h, Or.inr h2⟩⟩
    have hd : Disjoint (Icc a Real.pi) (Ioc (-Real.pi) b) := by
      rw [Set.disjoint_left]
      intro x h1 h2
      exact absurd (h1.1.trans h2.2) (not_le.2 h)
    rw [e, measureReal_union hd measurableSet_Ioc, law_congr (Ioc_ae_eq_Icc (a := -Real.pi) (b := b)),
      mass_window ha.1.le ha.2 le_rfl, mass_window le_rfl hb.1.le hb.2, ← add_div, ← window_period k _ ((-Real.pi + b) / 2 - mu),
      arcLength, if_neg (not_le.2 h)]
    congr 1
    unfold window
    rw [show (a + Real.pi) / 2 - mu - (Real.pi - a) / 2 = a - mu by ring,
      show (a + Real.pi) / 2 - mu + (Real.pi - a) / 2 = Real.pi - mu by ring,
      show (-Real.pi + b) / 2 - mu + 2 * Real.pi - (b - -Real.pi) / 2 = Real.pi - mu by ring,
      show (-Real.pi + b) / 2 - mu + 2 * Real.pi + (b - -Real.pi) / 2 = b + 2 * Real.pi - mu by ring,
      integral_add_adjacent_intervals (bump_int _ _ _) (bump_int _ _ _)]
    congr 1 <;> ring

/-- the arc between rotated ends has the angle of the interval -/
theorem arc_rotated {lo hi mu a b : ℝ} (h0 : lo < hi) (h1 : hi - lo < 2 * Real.pi) (ha : SameAngle (lo + mu) a)
    (hb : SameAngle (hi + mu) b) : arcLength a b = hi - lo := by
  have hpi := Real.pi_pos
  obtain ⟨hA, m, hm⟩ := ha
  obtain ⟨hB, n, hn⟩ := hb
  obtain ⟨b0, b1⟩ := arcLength_bounds hA hB
  obtain ⟨j, hj⟩ : ∃ j : ℤ, arcLength a b = hi - lo + j * (2 * Real.pi) := by
    unfold arcLength
    split_ifs
    · exact ⟨n - m, by rw [hm, hn]; push_cast; ring⟩
    · exact ⟨n - m + 1, by rw [hm, hn]; push_cast; ring⟩
  have j1 : j < 1 := by
    by_contra hc
    have : (1 : ℝ) ≤ j := by exact_mod_cast not_lt.1 hc
    nlinarith
  have j2 : -1 < j := by
    by_contra hc
    have : (j : ℝ) ≤ -1 := by exact_mod_cast not_lt.1 hc
    nlinarith
  have : j = 0 := by omega
  rw [hj, this]
  simp

theorem same_unique {x a b : ℝ} (ha : SameAngle x a) (hb : SameAngle x b) : a = b := by
  have hpi := Real.pi_pos
  obtain ⟨⟨a1, a2⟩, m, hm⟩ := ha
  obtain ⟨⟨b1, b2⟩, n, hn⟩ := hb
  have e : a - b = ((m - n : ℤ) : ℝ) * (2 * Real.pi) := by rw [hm, hn]; push_cast; ring
  have j1 : m - n < 1 := by
    by_contra hc
    have : (1 : ℝ) ≤ ((m - n : ℤ) : ℝ) := by exact_mod_cast not_lt.1 hc
    nlinarith
  have j2 : -1 < m - n := by
    by_contra hc
    have : ((m - n : ℤ) : ℝ) ≤ -1 := by exact_mod_cast not_lt.1 hc
    nlinarith
  have : m - n = 0 := by omega
  rw [this] at e
  simp at e
  linarith

/-- windows with at least the mass of the central one are at least as wide, and if equally wide they are central -/
theorem window_wide {k h L c : ℝ} (hk : 0 < k) (h0 : 0 < h) (hL0 : 0 ≤ L) (hL : L < 2 * Real.pi)
    (hm : window k h 0 ≤ window k (L / 2) c) : 2 * h ≤ L ∧ (L = 2 * h → ∃ n : ℤ, c = n * (2 * Real.pi)) := by
  have hp : 0 < window k h 0 := by rw [window_zero]; linarith [inner_pos h0 k]
  have hL1 : 0 < L := by
    rcases hL0.lt_or_eq with h | h
    · exact h
    · rw [← h] at hm
      have : window k (0 / 2) c = 0 := by simp [window]
      linarith
  have w := window_max hk (h := L / 2) (by linarith) (by linarith) c
  constructor
  · by_contra hc
    push Not at hc
    have h2 := hm.trans w.1
    rw [window_zero, window_zero] at h2
    have := inner_mono k (show L / 2 < h by linarith)
    simp only at this
    linarith
  · intro e
    refine w.2 (le_antisymm w.1 ?_)
    rwa [show L / 2 = h by linarith] at hm ⊢

end Verif.VMArc
