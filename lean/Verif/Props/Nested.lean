import Verif.Spec.Nested
import Verif.Props.TwoIntervals

/-!
# C156: intervals for smaller masses lie inside those for larger masses
-/

namespace Verif.Props
open Verif Verif.Modifier Verif.Hdi Verif.Interval Verif.Spec Verif.LocScale Verif.HalfScale MeasureTheory Set

/-- For a density with one mode and no flat part, the interval for a smaller mass lies inside the interval for a
larger one, whichever optimisers found them. -/
theorem hdi_nested (min1 min2 : Minimize) (h1 : Exact min1) (h2 : Exact min2) (b : Base) (hb : b.discrete = false)
    (m : ℝ) (hu : Unimodal b.pdf m) (hc : ∀ y : ℝ, b.lo < (y : EReal) → (y : EReal) < b.hi → ContinuousAt b.pdf y)
    (hf : NoFlat b.pdf b.lo b.hi) (p q : ℝ) (hp : 0 < p) (hpq : p ≤ q) (hq : q < 1) :
    (continuousHdi min2 b q).1 ≤ (continuousHdi min1 b p).1 ∧ (continuousHdi min1 b p).2 ≤ (continuousHdi min2 b q).2 := by
  obtain ⟨a1, a2, a3, a4, a5⟩ := hdi_continuous min1 h1 b hb p hp (by linarith)
  obtain ⟨c1, c2, c3, c4, -⟩ := hdi_continuous min2 h2 b hb q (by linarith) hq
  have d1 := hdi_density min1 h1 b hb m hu p hp (by linarith)
  have d2 := hdi_density min2 h2 b hb m hu q (by linarith) hq
  set x := continuousHdi min1 b p
  set z := continuousHdi min2 b q
  have hshort := a5 z.1 z.2 c2 (by rw [c4]; exact hpq)
  have hxlt : x.1 < x.2 := by
    rcases a2.lt_or_eq with h | h
    · exact h
    · rw [law_Icc_eq b hb, law_Ioc b hb a2, h, intervalIntegral.integral_same] at a4; linarith
  have hzlt : z.1 < z.2 := by linarith
  have inside : ∀ y : ℝ, (∃ s t : ℝ, s < y ∧ y < t ∧ b.lo ≤ (s : EReal) ∧ (t : EReal) ≤ b.hi) → ContinuousAt b.pdf y := by
    rintro y ⟨s, t, hs, ht, h3, h4⟩
    exact hc y (lt_of_le_of_lt h3 (by exact_mod_cast hs)) (lt_of_lt_of_le (by exact_mod_cast ht) h4)
  constructor
  · by_contra hcon
    push Not at hcon
    have hr : x.2 < z.2 := by linarith
    obtain ⟨y', e1, e2⟩ := exists_between (max_lt hzlt hr)
    have e3 := (le_max_left _ _).trans_lt e1
    have e4 := (le_max_right _ _).trans_lt e1
    have key : ∀ y, x.1 < y → y < min z.1 x.2 → b.pdf y = b.pdf y' := by
      intro y y1 y2
      have y3 := y2.trans_le (min_le_left _ _)
      have y4 := y2.trans_le (min_le_right _ _)
      apply le_antisymm
      · exact d2 y' y ⟨e3, e2⟩ (fun h => absurd h.1 (not_le.2 y3)) (inside y ⟨x.1, z.2, y1, by linarith, a1, c3⟩)
      · exact d1 y y' ⟨y1, y4⟩ (fun h => absurd h.2 (not_le.2 e4)) (inside y' ⟨x.1, z.2, by linarith, e2, a1, c3⟩)
    obtain ⟨s, t, s1, s2, t1, t2, hne⟩ := hf x.1 (min z.1 x.2) (lt_min hcon hxlt) a1
      ((EReal.coe_le_coe_iff.2 (min_le_right _ _)).trans a3)
    exact hne ((key s s1 s2).trans (key t t1 t2).symm)
  · by_contra hcon
    push Not at hcon
    have hr : z.1 < x.1 := by linarith
    obtain ⟨y', e1, e2⟩ := exists_between (lt_min hzlt hr)
    have e3 := e2.trans_le (min_le_left _ _)
    have e4 := e2.trans_le (min_le_right _ _)
    have key : ∀ y, max z.2 x.1 < y → y < x.2 → b.pdf y = b.pdf y' := by
      intro y y1 y2
      have y3 := (le_max_left _ _).trans_lt y1
      have y4 := (le_max_right _ _).trans_lt y1
      apply le_antisymm
      · exact d2 y' y ⟨e1, e3⟩ (fun h => absurd h.2 (not_le.2 y3)) (inside y ⟨z.1, x.2, by linarith, y2, c1, a3⟩)
      · exact d1 y y' ⟨y4, y2⟩ (fun h => absurd h.1 (not_le.2 e4)) (inside y' ⟨z.1, x.2, e1, by linarith, c1, a3⟩)
    obtain ⟨s, t, s1, s2, t1, t2, hne⟩ := hf (max z.2 x.1) x.2 (max_lt hcon hxlt)
      (a1.trans (EReal.coe_le_coe_iff.2 (le_max_right _ _))) a3
    exact hne ((key s s1 s2).trans (key t t1 t2).symm)

/-- and there is only one interval with the smallest length: all optimisers that find the minimum agree -/
theorem hdi_unique (min1 min2 : Minimize) (h1 : Exact min1) (h2 : Exact min2) (b : Base) (hb : b.discrete = false)
    (m : ℝ) (hu : Unimodal b.pdf m) (hc : ∀ y : ℝ, b.lo < (y : EReal) → (y : EReal) < b.hi → ContinuousAt b.pdf y)
    (hf : NoFlat b.pdf b.lo b.hi) (p : ℝ) (hp : 0 < p) (hp1 : p < 1) :
    continuousHdi min1 b p = continuousHdi min2 b p := by
  obtain ⟨k1, k2⟩ := hdi_nested min1 min2 h1 h2 b hb m hu hc hf p p hp le_rfl hp1
  obtain ⟨k3, k4⟩ := hdi_nested min2 min1 h2 h1 b hb m hu hc hf p p hp le_rfl hp1
  exact Prod.ext (le_antisymm k3 k1) (le_antisymm k2 k4)

/-- for Uniform they need not agree -/
theorem hdi_not_unique : ∃ min1 min2 : Minimize, Exact min1 ∧ Exact min2 ∧
    continuousHdi min1 (unif 0 1 (by norm_num)) 0.5 ≠ continuousHdi min2 (unif 0 1 (by norm_num)) 0.5 := by
  obtain ⟨m1, e1, f1⟩ := uniform_hdi_any 0 1 (by norm_num) 0.5 (by norm_num) 0 le_rfl (by norm_num)
  obtain ⟨m2, e2, f2⟩ := uniform_hdi_any 0 1 (by norm_num) 0.5 (by norm_num) 0.5 (by norm_num) (by norm_num)
  refine ⟨m1, m2, e1, e2, ?_⟩
  rw [f1, f2]
  intro h
  have := congrArg Prod.fst h
  norm_num at this

/-- nor need the intervals of one optimiser be nested: for Uniform the 50% interval may lie partly outside the
60% interval -/
theorem hdi_not_nested : ∃ minimize : Minimize, Exact minimize ∧
    (continuousHdi minimize (unif 0 1 (by norm_num)) 0.5).1 < (continuousHdi minimize (unif 0 1 (by norm_num)) 0.6).1 := by
  classical
  have s1 := uniform_solved 0 1 (by norm_num) 0.5 (by norm_num) 0 le_rfl (by norm_num)
  have s2 := uniform_solved 0 1 (by norm_num) 0.6 (by norm_num) 0.4 (by norm_num) (by norm_num)
  have s3 : ¬ Solved intervalShort (intervalLoss (fun x => (unif 0 1 (by norm_num)).cdf x) 0 0.6)
      ((unif 0 1 (by norm_num)).lo, (unif 0 1 (by norm_num)).hi) (0, 0 + 0.5 * (1 - 0)) := by
    intro h
    have k1 := h.1.1
    have k2 := s1.1.1
    simp only [intervalLoss] at k1 k2
    norm_num at k1 k2
    linarith
  refine ⟨fun o k B _ => if Solved o k B (0, 0 + 0.5 * (1 - 0)) then (0, 0 + 0.5 * (1 - 0))
    else if Solved o k B (0.4, 0.4 + 0.6 * (1 - 0)) then (0.4, 0.4 + 0.6 * (1 - 0))
    else if h : ∃ x, Solved o k B x then h.choose else (0, 0), ?_, ?_⟩
  · intro o k B x0 hx
    by_cases h1 : Solved o k B (0, 0 + 0.5 * (1 - 0))
    · simp only [if_pos h1]; exact h1
    · by_cases h2 : Solved o k B (0.4, 0.4 + 0.6 * (1 - 0))
      · simp only [if_neg h1, if_pos h2]; exact h2
      · simp only [if_neg h1, if_neg h2, dif_pos hx]; exact hx.choose_spec
  · unfold continuousHdi
    simp only [if_pos s1, if_neg s3, if_pos s2]
    norm_num

/-! ## The families -/

/-- Normal, Laplace, Logistic, Cauchy and StudentT have one mode and no flat part -/
theorem peak_nested (F : PeakFam) (hF : F.Ok) (m s : ℝ) (hs : 0 < s) (b : Base) (hpdf : b.pdf = F.pdf m s) :
    Unimodal b.pdf m ∧ (∀ y : ℝ, ContinuousAt b.pdf y) ∧ NoFlat b.pdf b.lo b.hi := by
  have hg := peak_fam F hF
  have mono : ∀ x y : ℝ, |x - m| < |y - m| → moved (F.pdf 0 1) m s y < moved (F.pdf 0 1) m s x := by
    have e : ∀ x, F.pdf 0 1 x = F.pdf 0 1 |x| := by
      intro x
      rcases abs_cases x with ⟨h, -⟩ | ⟨h, -⟩
      · rw [h]
      · rw [h, hg.even]
    intro x y h
    unfold moved
    rw [e ((x - m) / s), e ((y - m) / s), abs_div, abs_div, abs_of_pos hs]
    exact div_lt_div_of_pos_right (hg.falls _ _ (by positivity) (div_lt_div_of_pos_right h hs)) hs
  rw [hpdf, fam_moved F m hs]
  refine ⟨⟨?_, ?_⟩, ?_, ?_⟩
  · intro x hx y hy hxy
    rcases hxy.lt_or_eq with h | h
    · refine (mono y x ?_).le
      simp only [mem_Iic] at hx hy
      rw [abs_of_nonpos (by linarith), abs_of_nonpos (by linarith)]
      linarith
    · rw [h]
  · intro x hx y hy hxy
    rcases hxy.lt_or_eq with h | h
    · refine (mono x y ?_).le
      simp only [mem_Ici] at hx hy
      rw [abs_of_nonneg (by linarith), abs_of_nonneg (by linarith)]
      linarith
    · rw [h]
  · intro y
    have : Continuous (moved (F.pdf 0 1) m s) := (hg.cont.comp (by fun_prop)).div_const _
    exact this.continuousAt
  · intro p q h _ _
    by_cases hm : |p + (q - p) / 3 - m| = |p + (q - p) / 2 - m|
    · refine ⟨p + (q - p) / 3, p + (q - p) * 5 / 12, by linarith, by linarith, by linarith, by linarith, ?_⟩
      refine (mono _ _ ?_).ne
      rcases abs_eq_abs.1 hm with h' | h'
      · exfalso; linarith
      · rw [show p + (q - p) * 5 / 12 - m = 0 by linarith, abs_zero]
        refine abs_pos.2 ?_
        intro h0; linarith
    · refine ⟨p + (q - p) / 3, p + (q - p) / 2, by linarith, by linarith, by linarith, by linarith, ?_⟩
      rcases lt_or_gt_of_ne hm with h' | h'
      · exact (mono _ _ h').ne'
      · exact (mono _ _ h').ne

/-- Exponential, HalfNormal, HalfCauchy and HalfStudentT have one mode and no flat part -/
theorem half_nested (F : HalfFam) (hF : F.Ok) (s : ℝ) (hs : 0 < s) (b : Base) (hpdf : b.pdf = F.pdf s)
    (hlo : b.lo = ((0 : ℝ) : EReal)) :
    Unimodal b.pdf 0 ∧ (∀ y : ℝ, b.lo < (y : EReal) → ContinuousAt b.pdf y) ∧ NoFlat b.pdf b.lo b.hi := by
  have hg := unfolded_peak F hF
  have mono : ∀ x y : ℝ, 0 ≤ x → x < y → folded (unfolded F) s y < folded (unfolded F) s x := by
    intro x y hx hxy
    unfold folded
    rw [if_neg (by linarith), if_neg (by linarith)]
    have := hg.falls (x / s) (y / s) (by positivity) (div_lt_div_of_pos_right hxy hs)
    exact div_lt_div_of_pos_right (by linarith) hs
  rw [hpdf, half_folded F hF hs, hlo]
  refine ⟨⟨?_, ?_⟩, ?_, ?_⟩
  · intro x hx y hy hxy
    rcases (show x ≤ 0 from hx).lt_or_eq with h | h
    · have : folded (unfolded F) s x = 0 := by unfold folded; rw [if_pos h]
      rw [this]
      exact folded_nonneg hg hs y
    · rw [le_antisymm hxy (by rw [h]; exact hy)]
  · intro x hx y hy hxy
    rcases hxy.lt_or_eq with h | h
    · exact (mono x y hx h).le
    · rw [h]
  · intro y hy
    have hy' : 0 < y := by exact_mod_cast hy
    have hcont : Continuous fun x => 2 * unfolded F (x / s) / s :=
      ((hg.cont.comp (by fun_prop)).const_mul 2 |>.div_const _)
    refine hcont.continuousAt.congr ?_
    filter_upwards [lt_mem_nhds hy'] with x hx
    unfold folded
    rw [if_neg (by linarith)]
  · intro p q h hp _
    have hp' : 0 ≤ p := by exact_mod_cast hp
    exact ⟨p + (q - p) / 3, p + (q - p) / 2, by linarith, by linarith, by linarith, by linarith,
      (mono _ _ (by linarith) (by linarith)).ne'⟩

example (minimize : Minimize) (hmin : Exact minimize) : ∃ b : Base, b.pdf = halfNormalPdf 2 ∧
    (continuousHdi minimize b 0.5).2 ≤ (continuousHdi minimize b 0.94).2 := by
  obtain ⟨b, hb, hp, hl⟩ := half_base_exists .halfNormal trivial 2 (by norm_num)
  obtain ⟨k1, k2, k3⟩ := half_nested .halfNormal trivial 2 (by norm_num) b hp hl
  exact ⟨b, hp, (hdi_nested minimize minimize hmin hmin b hb 0 k1 (fun y h _ => k2 y h) k3 0.5 0.94 (by norm_num)
    (by norm_num) (by norm_num)).2⟩

example (min1 min2 : Minimize) (h1 : Exact min1) (h2 : Exact min2) : ∃ b : Base, b.pdf = normalPdf 3 2 ∧
    continuousHdi min1 b 0.94 = continuousHdi min2 b 0.94 := by
  obtain ⟨b, hb, hp⟩ := peak_base_exists .normal trivial 3 2 (by norm_num)
  obtain ⟨k1, k2, k3⟩ := peak_nested .normal trivial 3 2 (by norm_num) b hp
  exact ⟨b, hp, hdi_unique min1 min2 h1 h2 b hb 3 k1 (fun y _ _ => k2 y) k3 0.94 (by norm_num) (by norm_num)⟩

end Verif.Props
