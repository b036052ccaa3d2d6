import Verif.Model.Hdi
import Verif.Lemmas.Hdi
import Verif.Lemmas.Modifier
import Verif.Lemmas.ModifierBase
import Verif.Spec.Modifier
import Verif.Lemmas.Interval
import Verif.Props.Censored

/-!
# C71: highest-density interval of a continuous distribution
-/

namespace Verif.Props
open Verif Verif.Modifier Verif.Hdi MeasureTheory Set

/-- the minimiser returns a point within the bounds that satisfies the constraint, at which the
objective is smallest among all such points -/
def Solved (objective : ℝ × ℝ → EReal) (constraint : ℝ × ℝ → ℝ) (bounds : EReal × EReal) (x : ℝ × ℝ) :
    Prop :=
  let ok := fun z : ℝ × ℝ => constraint z = 0 ∧ bounds.1 ≤ (z.1 : EReal) ∧ (z.1 : EReal) ≤ bounds.2 ∧
    bounds.1 ≤ (z.2 : EReal) ∧ (z.2 : EReal) ≤ bounds.2
  ok x ∧ ∀ z, ok z → objective x ≤ objective z

/-- the minimiser does its work whenever there is a solution -/
def Exact (minimize : Minimize) : Prop :=
  ∀ objective constraint bounds x0, (∃ x, Solved objective constraint bounds x) →
    Solved objective constraint bounds (minimize objective constraint bounds x0)

section
variable (b : Base) (hb : b.discrete = false)
include hb

theorem integrable_pdf : Integrable b.pdf := by
  obtain ⟨hm, hl⟩ := b.continuous_law hb
  have h1 : ∫⁻ x, ENNReal.ofReal (b.pdf x) = 1 := by
    have := b.prob.measure_univ
    rwa [hl, withDensity_apply _ MeasurableSet.univ, Measure.restrict_univ] at this
  refine ⟨hm.aestronglyMeasurable, ?_⟩
  rw [hasFiniteIntegral_iff_ofReal (ae_of_all _ b.pdf_nonneg), h1]
  exact ENNReal.one_lt_top

theorem law_Ioc {a c : ℝ} (h : a ≤ c) : b.law.real (Ioc a c) = ∫ s in a..c, b.pdf s := by
  obtain ⟨hm, hl⟩ := b.continuous_law hb
  rw [intervalIntegral.integral_of_le h, integral_eq_lintegral_of_nonneg_ae
    (ae_of_all _ b.pdf_nonneg) hm.aestronglyMeasurable.restrict, measureReal_def]
  congr 1
  conv_lhs => rw [hl]
  rw [withDensity_apply _ measurableSet_Ioc]

theorem law_Icc_eq (a c : ℝ) : b.law.real (Icc a c) = b.law.real (Ioc a c) := by
  apply measureReal_congr
  have : NullSingletonClass b.law := ⟨fun x => b.atomless hb x⟩
  exact (Ioc_ae_eq_Icc).symm

theorem cdf_gap {a c : ℝ} (h : a ≤ c) : b.cdf c - b.cdf a = ∫ s in a..c, b.pdf s := by
  rw [← law_Ioc b hb h, ← b.mass_gap (e := (a : EReal)) (f := (c : EReal)) (by exact_mod_cast h)]
  congr 1
  ext y
  simp
end

/-- a point that satisfies the constraint, from an interval of at least that mass -/
theorem feasible_of_mass (b : Base) (hb : b.discrete = false) {mass : ℝ} (hm : 0 < mass) {a c : ℝ}
    (h : mass ≤ b.law.real (Icc a c)) :
    ∃ a' c', a' ≤ c' ∧ c' - a' ≤ c - a ∧ ∫ s in a'..c', b.pdf s = mass ∧
      b.lo ≤ (a' : EReal) ∧ (a' : EReal) ≤ b.hi ∧ b.lo ≤ (c' : EReal) ∧ (c' : EReal) ≤ b.hi := by
  have hInt := integrable_pdf b hb
  -- the part inside the support
  have hne : (Icc a c ∩ {y : ℝ | b.lo ≤ (y : EReal) ∧ (y : EReal) ≤ b.hi}).Nonempty := by
    by_contra hcon
    rw [Set.not_nonempty_iff_eq_empty] at hcon
    have : b.law.real (Icc a c) = 0 := by
      rw [measureReal_def, ENNReal.toReal_eq_zero_iff]
      left
      apply measure_mono_null _ (show b.law {y : ℝ | ¬ (b.lo ≤ (y : EReal) ∧ (y : EReal) ≤ b.hi)} = 0
        from b.in_support)
      intro y hy hs
      exact (Set.eq_empty_iff_forall_notMem.1 hcon y) ⟨hy, hs⟩
    linarith
  obtain ⟨y0, hy0, hs0⟩ := hne
  set a1 : ℝ := (max b.lo (a : EReal)).toReal with ha1
  set c1 : ℝ := (min b.hi (c : EReal)).toReal with hc1
  have hlo_top : b.lo ≠ ⊤ := fun h => by
    have := hs0.1; rw [h] at this; exact absurd this (by simp)
  have hhi_bot : b.hi ≠ ⊥ := fun h => by
    have := hs0.2; rw [h] at this; exact absurd this (by simp)
  have ea1 : (a1 : EReal) = max b.lo (a : EReal) := by
    rw [ha1, EReal.coe_toReal]
    · rcases max_choice b.lo (a : EReal) with h | h <;> rw [h]
      · exact hlo_top
      · exact EReal.coe_ne_top a
    · intro h
      have : (a : EReal) ≤ ⊥ := h ▸ le_max_right b.lo (a : EReal)
      exact absurd this (by simp)
  have ec1 : (c1 : EReal) = min b.hi (c : EReal) := by
    rw [hc1, EReal.coe_toReal]
    · intro h
      have : ⊤ ≤ (c : EReal) := h ▸ min_le_right b.hi (c : EReal)
      exact absurd this (by simp)
    · rcases min_choice b.hi (c : EReal) with h | h <;> rw [h]
      · exact hhi_bot
      · exact EReal.coe_ne_bot c
  have haa1 : a ≤ a1 := by
    have : (a : EReal) ≤ a1 := by rw [ea1]; exact le_max_right _ _
    exact_mod_cast this
  have hcc1 : c1 ≤ c := by
    have : (c1 : EReal) ≤ c := by rw [ec1]; exact min_le_right _ _
    exact_mod_cast this
  have ha1y : a1 ≤ y0 := by
    have : (a1 : EReal) ≤ y0 := by rw [ea1]; exact max_le hs0.1 (by exact_mod_cast hy0.1)
    exact_mod_cast this
  have hyc1 : y0 ≤ c1 := by
    have : (y0 : EReal) ≤ c1 := by rw [ec1]; exact le_min hs0.2 (by exact_mod_cast hy0.2)
    exact_mod_cast this
  have hac1 : a1 ≤ c1 := ha1y.trans hyc1
  have hmass1 : b.law.real (Icc a1 c1) = b.law.real (Icc a c) := by
    apply measureReal_congr
    filter_upwards [b.in_support] with y hy
    apply propext
    show (y ∈ Icc a1 c1) ↔ (y ∈ Icc a c)
    constructor
    · intro h
      exact ⟨haa1.trans h.1, h.2.trans hcc1⟩
    · intro h
      constructor
      · have : (a1 : EReal) ≤ y := by rw [ea1]; exact max_le hy.1 (by exact_mod_cast h.1)
        exact_mod_cast this
      · have : (y : EReal) ≤ c1 := by rw [ec1]; exact le_min hy.2 (by exact_mod_cast h.2)
        exact_mod_cast this
  have hge : mass ≤ ∫ s in a1..c1, b.pdf s := by
    rw [← law_Ioc b hb hac1, ← law_Icc_eq b hb, hmass1]; exact h
  have hlo_a1 : b.lo ≤ (a1 : EReal) := by rw [ea1]; exact le_max_left _ _
  have hc1_hi : (c1 : EReal) ≤ b.hi := by rw [ec1]; exact min_le_left _ _
  have key : ∀ c', a1 ≤ c' → c' ≤ c1 → ∫ s in a1..c', b.pdf s = mass → _ := fun c' h1 h2 h3 =>
    (⟨a1, c', h1, by linarith, h3, hlo_a1,
      le_trans (by exact_mod_cast h1.trans h2) hc1_hi,
      hlo_a1.trans (by exact_mod_cast h1), le_trans (by exact_mod_cast h2) hc1_hi⟩ :
      ∃ a' c', a' ≤ c' ∧ c' - a' ≤ c - a ∧ ∫ s in a'..c', b.pdf s = mass ∧
      b.lo ≤ (a' : EReal) ∧ (a' : EReal) ≤ b.hi ∧ b.lo ≤ (c' : EReal) ∧ (c' : EReal) ≤ b.hi)
  rcases eq_or_lt_of_le hge with he | hlt
  · exact key c1 hac1 le_rfl he.symm
  · obtain ⟨c', h1, h2, h3⟩ := shrink hInt hm hac1 hlt
    exact key c' h1 h2.le h3

/-- some interval has at least the requested mass -/
theorem enough_mass (b : Base) (mass : ℝ) (h0 : 0 < mass) (h1 : mass < 1) :
    ∃ a c, a ≤ c ∧ mass ≤ b.law.real (Icc a c) := by
  obtain ⟨p, hp⟩ := Interval.ppf_real b (q := (1 - mass) / 2) (by linarith) (by linarith)
  obtain ⟨q, hq⟩ := Interval.ppf_real b (q := 1 - (1 - mass) / 2) (by linarith) (by linarith)
  have hpq : p ≤ q := by
    have := Interval.ppf_mono b (p := (1 - mass) / 2) (q := 1 - (1 - mass) / 2) (by linarith)
      (by linarith) (by linarith)
    rw [hp, hq] at this
    exact_mod_cast this
  refine ⟨p, q, hpq, ?_⟩
  have t1 := (Interval.quantile_tails b (by linarith) (by linarith) hp).1
  have t2 := (Interval.quantile_tails b (by linarith) (by linarith) hq).2
  have : Icc p q = Iic q \ Iio p := by ext y; simp
  have hsub : Iio p ⊆ Iic q := fun y hy => (le_of_lt hy).trans hpq
  rw [this, measureReal_sdiff hsub measurableSet_Iio]
  linarith

/-- The interval has the requested mass, and no interval with at least that mass is shorter. -/
theorem hdi_shortest (b : Base) (hb : b.discrete = false) (mass : ℝ) (h0 : 0 < mass) (h1 : mass < 1)
    (x : ℝ × ℝ)
    (hx : Solved intervalShort (intervalLoss (fun x => b.cdf x) 0 mass) (b.lo, b.hi) x) :
    x.1 ≤ x.2 ∧ b.law.real (Icc x.1 x.2) = mass ∧
      ∀ a c, a ≤ c → mass ≤ b.law.real (Icc a c) → x.2 - x.1 ≤ c - a := by
  obtain ⟨⟨hcon, -⟩, hmin⟩ := hx
  have hopt : ∀ a c, a ≤ c → mass ≤ b.law.real (Icc a c) → intervalShort x ≤ ((c - a : ℝ) : EReal) := by
    intro a c hac hm
    obtain ⟨a', c', hac', hw, hI, h2, h3, h4, h5⟩ := feasible_of_mass b hb h0 hm
    have := hmin (a', c') ⟨by
      have := cdf_gap b hb hac'
      simp only [intervalLoss]
      rw [this, hI]; ring, h2, h3, h4, h5⟩
    refine this.trans ?_
    simp only [intervalShort, not_lt.2 hac', if_false]
    exact_mod_cast hw
  obtain ⟨a0, c0, hac0, hm0⟩ := enough_mass b mass h0 h1
  have hle : x.1 ≤ x.2 := by
    by_contra hc
    push Not at hc
    have := hopt a0 c0 hac0 hm0
    simp only [intervalShort, hc, if_true] at this
    exact absurd (top_le_iff.1 this) (EReal.coe_ne_top _)
  refine ⟨hle, ?_, ?_⟩
  · rw [law_Icc_eq b hb, law_Ioc b hb hle, ← cdf_gap b hb hle]
    simp only [intervalLoss] at hcon
    linarith
  · intro a c hac hm
    have := hopt a c hac hm
    simp only [intervalShort, not_lt.2 hle, if_false] at this
    exact_mod_cast this

/-- For a density that increases and then decreases, every point inside the interval has at least the
density of every point outside it (at which the density does not jump). -/
theorem hdi_highest_density (b : Base) (hb : b.discrete = false) (m : ℝ) (hu : Unimodal b.pdf m)
    (mass : ℝ) (h0 : 0 < mass) (h1 : mass < 1) (x : ℝ × ℝ)
    (hx : Solved intervalShort (intervalLoss (fun x => b.cdf x) 0 mass) (b.lo, b.hi) x)
    (s y : ℝ) (hs : s ∈ Ioo x.1 x.2) (hy : y ∉ Icc x.1 x.2) (hc : ContinuousAt b.pdf y) :
    b.pdf y ≤ b.pdf s := by
  obtain ⟨hle, hmass, hshort⟩ := hdi_shortest b hb mass h0 h1 x hx
  have hInt := integrable_pdf b hb
  by_contra hcon
  push Not at hcon
  have hwin : ∀ t : ℝ, mass < ∫ u in (x.1 + t)..(x.2 + t), b.pdf u → False := by
    intro t hlt
    obtain ⟨c', g1, g2, g3⟩ := shrink hInt h0 (by linarith) hlt
    have := hshort (x.1 + t) c' g1 (by rw [law_Icc_eq b hb, law_Ioc b hb g1, g3])
    linarith
  have hval : ∫ u in x.1..x.2, b.pdf u = mass := by
    rw [← law_Ioc b hb hle, ← law_Icc_eq b hb, hmass]
  rcases lt_or_ge y x.1 with h | h
  · obtain ⟨t, -, -, hlt⟩ := window_left hInt hu hs.1 hs.2 h hc hcon
    rw [hval] at hlt
    exact hwin (-t) (by simpa [sub_eq_add_neg] using hlt)
  · have h' : x.2 < y := by
      by_contra hh
      push Not at hh
      exact hy ⟨h, hh⟩
    obtain ⟨t, -, -, hlt⟩ := window_right hInt hu hs.1 hs.2 h' hc hcon
    rw [hval] at hlt
    exact hwin t hlt

/-- a shortest interval exists -/
theorem hdi_exists (b : Base) (hb : b.discrete = false) (mass : ℝ) (h0 : 0 < mass) (h1 : mass < 1) :
    ∃ x, Solved intervalShort (intervalLoss (fun x => b.cdf x) 0 mass) (b.lo, b.hi) x := by
  have hInt := integrable_pdf b hb
  have hcont : Continuous fun x : ℝ => b.cdf x := by
    have : (fun x : ℝ => b.cdf x) = fun x : ℝ => b.cdf (0 : ℝ) + ∫ s in (0 : ℝ)..x, b.pdf s := by
      funext x
      rcases le_total 0 x with h | h
      · rw [← cdf_gap b hb h]; ring
      · rw [intervalIntegral.integral_symm, ← cdf_gap b hb h]; ring
    rw [this]
    exact continuous_const.add (intervalIntegral.continuous_primitive
      (fun _ _ => hInt.intervalIntegrable) 0)
  obtain ⟨a0, c0, -, hm0⟩ := enough_mass b mass h0 h1
  obtain ⟨a, c, hac, -, hI, g1, g2, g3, g4⟩ := feasible_of_mass b hb h0 hm0
  -- the points worth looking at
  let K : Set (ℝ × ℝ) := {z | b.cdf z.2 - b.cdf z.1 = mass ∧ b.lo ≤ (z.1 : EReal) ∧
    (z.1 : EReal) ≤ b.hi ∧ b.lo ≤ (z.2 : EReal) ∧ (z.2 : EReal) ≤ b.hi ∧ z.1 ≤ z.2 ∧
    z.2 - z.1 ≤ c - a}
  obtain ⟨p, hp⟩ := Interval.ppf_real b (q := mass / 2) (by linarith) (by linarith)
  obtain ⟨q, hq⟩ := Interval.ppf_real b (q := 1 - mass / 2) (by linarith) (by linarith)
  have tp := (Interval.quantile_tails b (by linarith) (by linarith) hp).1
  have tq := (Interval.quantile_tails b (by linarith) (by linarith) hq).2
  have hsub : K ⊆ Icc (p - (c - a)) q ×ˢ Icc p (q + (c - a)) := by
    rintro ⟨u, v⟩ ⟨k1, -, -, -, -, k6, k7⟩
    simp only at k1 k6 k7
    have hv : p ≤ v := by
      by_contra hc
      push Not at hc
      have : b.cdf v ≤ mass / 2 := by
        rw [b.cdf_coe]
        exact (measureReal_mono (fun y hy => lt_of_le_of_lt hy hc)).trans tp
      have := b.cdf_nonneg (u : EReal)
      linarith
    have hu : u ≤ q := by
      by_contra hc
      push Not at hc
      have : 1 - mass / 2 ≤ b.cdf u := by
        rw [b.cdf_coe]
        exact tq.trans (measureReal_mono (fun y hy => le_trans hy hc.le))
      have := b.cdf_le_one (v : EReal)
      linarith
    exact ⟨⟨by linarith, hu⟩, ⟨hv, by linarith⟩⟩
  have hf := continuous_fst (X := ℝ) (Y := ℝ)
  have hs := continuous_snd (X := ℝ) (Y := ℝ)
  have hcoe : Continuous fun x : ℝ => (x : EReal) := continuous_coe_real_ereal
  have hclosed : IsClosed K := by
    refine IsClosed.inter (isClosed_eq ((hcont.comp hs).sub (hcont.comp hf)) continuous_const) ?_
    refine IsClosed.inter (isClosed_le continuous_const (hcoe.comp hf)) ?_
    refine IsClosed.inter (isClosed_le (hcoe.comp hf) continuous_const) ?_
    refine IsClosed.inter (isClosed_le continuous_const (hcoe.comp hs)) ?_
    refine IsClosed.inter (isClosed_le (hcoe.comp hs) continuous_const) ?_
    exact IsClosed.inter (isClosed_le hf hs) (isClosed_le (hs.sub hf) continuous_const)
  have hcompact : IsCompact K := (isCompact_Icc.prod isCompact_Icc).of_isClosed_subset hclosed hsub
  have hne : K.Nonempty := ⟨(a, c), by
    refine ⟨?_, g1, g2, g3, g4, hac, le_rfl⟩
    simp only
    rw [cdf_gap b hb hac, hI]⟩
  obtain ⟨x, hxK, hxmin⟩ := hcompact.exists_isMinOn hne ((hs.sub hf).continuousOn)
  obtain ⟨k1, k2, k3, k4, k5, k6, k7⟩ := hxK
  refine ⟨x, ⟨?_, k2, k3, k4, k5⟩, ?_⟩
  · simp only [intervalLoss]; linarith
  · rintro z ⟨z1, z2, z3, z4, z5⟩
    have e1 : intervalShort x = ((x.2 - x.1 : ℝ) : EReal) := by
      simp only [intervalShort, not_lt.2 k6, if_false]
    rw [e1]
    by_cases hz : z.2 < z.1
    · simp only [intervalShort, hz, if_true]; exact le_top
    · simp only [intervalShort, hz, if_false]
      push Not at hz
      have : x.2 - x.1 ≤ z.2 - z.1 := by
        by_cases hw : z.2 - z.1 ≤ c - a
        · refine hxmin (a := z) ⟨?_, z2, z3, z4, z5, hz, hw⟩
          simp only [intervalLoss] at z1
          linarith
        · push Not at hw
          linarith
      exact_mod_cast this

/-- `hdi` of a continuous distribution, with an exact minimiser: the interval has the requested mass,
lies in the support, and no interval with at least that mass is shorter. -/
theorem hdi_continuous (minimize : Minimize) (hmin : Exact minimize) (b : Base)
    (hb : b.discrete = false) (mass : ℝ) (h0 : 0 < mass) (h1 : mass < 1) :
    let x := continuousHdi minimize b mass
    b.lo ≤ (x.1 : EReal) ∧ x.1 ≤ x.2 ∧ (x.2 : EReal) ≤ b.hi ∧ b.law.real (Icc x.1 x.2) = mass ∧
      ∀ a c, a ≤ c → mass ≤ b.law.real (Icc a c) → x.2 - x.1 ≤ c - a := by
  have hx := hmin _ _ _ (b.ppf ((1 - mass) / 2), b.ppf (1 - (1 - mass) / 2))
    (hdi_exists b hb mass h0 h1)
  obtain ⟨k1, k2, k3⟩ := hdi_shortest b hb mass h0 h1 _ hx
  exact ⟨hx.1.2.1, k1, hx.1.2.2.2.2, k2, k3⟩

/-- For a density that increases and then decreases, every point strictly inside the interval has at
least the density of every point outside it at which the density does not jump. -/
theorem hdi_density (minimize : Minimize) (hmin : Exact minimize) (b : Base)
    (hb : b.discrete = false) (m : ℝ) (hu : Unimodal b.pdf m) (mass : ℝ) (h0 : 0 < mass)
    (h1 : mass < 1) (s y : ℝ)
    (hs : s ∈ Ioo (continuousHdi minimize b mass).1 (continuousHdi minimize b mass).2)
    (hy : y ∉ Icc (continuousHdi minimize b mass).1 (continuousHdi minimize b mass).2)
    (hc : ContinuousAt b.pdf y) : b.pdf y ≤ b.pdf s :=
  hdi_highest_density b hb m hu mass h0 h1 _ (hmin _ _ _ _ (hdi_exists b hb mass h0 h1)) s y hs hy hc

/-- an exact minimiser exists, so the two theorems are not about nothing -/
theorem exact_exists : ∃ minimize : Minimize, Exact minimize := by
  classical
  refine ⟨fun o k B _ => if h : ∃ x, Solved o k B x then h.choose else (0, 0), ?_⟩
  intro o k B x0 h
  simp only [h, dif_pos]
  exact h.choose_spec

theorem unif_unimodal : Unimodal (unif 0 1 (by norm_num)).pdf (1 / 2) := by
  show Unimodal (unifPdf 0 1) (1 / 2)
  constructor
  · intro x hx y hy hxy
    simp only [mem_Iic] at hx hy
    by_cases h : x ∈ Icc (0 : ℝ) 1
    · have h' : y ∈ Icc (0 : ℝ) 1 := ⟨h.1.trans hxy, by linarith⟩
      simp [unifPdf, h, h']
    · by_cases h' : y ∈ Icc (0 : ℝ) 1 <;> simp [unifPdf, h, h']
  · intro x hx y hy hxy
    simp only [mem_Ici] at hx hy
    by_cases h : y ∈ Icc (0 : ℝ) 1
    · have h' : x ∈ Icc (0 : ℝ) 1 := ⟨by linarith, hxy.trans h.2⟩
      simp [unifPdf, h, h']
    · by_cases h' : x ∈ Icc (0 : ℝ) 1 <;> simp [unifPdf, h, h']

/-- the density theorem applies to Uniform(0, 1) -/
example (minimize : Minimize) (h : Exact minimize) (s y : ℝ)
    (hs : s ∈ Ioo (continuousHdi minimize (unif 0 1 (by norm_num)) 0.9).1
      (continuousHdi minimize (unif 0 1 (by norm_num)) 0.9).2)
    (hy : y ∉ Icc (continuousHdi minimize (unif 0 1 (by norm_num)) 0.9).1
      (continuousHdi minimize (unif 0 1 (by norm_num)) 0.9).2)
    (hc : ContinuousAt (unif 0 1 (by norm_num)).pdf y) :
    (unif 0 1 (by norm_num)).pdf y ≤ (unif 0 1 (by norm_num)).pdf s :=
  hdi_density minimize h _ rfl _ unif_unimodal 0.9 (by norm_num) (by norm_num) s y hs hy hc

/-- the 90% interval of Uniform(0, 1) has length 0.9 -/
example : ∃ minimize : Minimize, Exact minimize ∧
    (continuousHdi minimize (unif 0 1 (by norm_num)) 0.9).2
      - (continuousHdi minimize (unif 0 1 (by norm_num)) 0.9).1 = 0.9 := by
  obtain ⟨mn, hmn⟩ := exact_exists
  refine ⟨mn, hmn, ?_⟩
  obtain ⟨k1, k2, k3, k4, -⟩ := hdi_continuous mn hmn (unif 0 1 (by norm_num)) rfl 0.9 (by norm_num)
    (by norm_num)
  rw [unif_real _ _ _ _ measurableSet_Icc] at k4
  set x := continuousHdi mn (unif 0 1 (by norm_num)) 0.9
  have k1' : (0 : ℝ) ≤ x.1 := EReal.coe_le_coe_iff.1 k1
  have k3' : x.2 ≤ (1 : ℝ) := EReal.coe_le_coe_iff.1 k3
  rw [Icc_inter_Icc, max_eq_left k1', min_eq_left k3', Real.volume_real_Icc_of_le k2] at k4
  linarith

/-! ## Censored distributions -/

/-- What the interval of a censored distribution satisfies: the interval *together with the two bounds*
has the requested mass. -/
theorem hdi_censored_mass (b : Base) (hb : b.discrete = false) (l u : EReal) (hp : Proper b l u)
    (mass : ℝ) (x : ℝ × ℝ) (hord : x.1 ≤ x.2)
    (hx : Solved intervalShort
      (intervalLoss (censCdf b (censBounds b l u).1 (censBounds b l u).2)
        (censPdfAt b (censBounds b l u).1 (censBounds b l u).2 (censBounds b l u).1
          + censPdfAt b (censBounds b l u).1 (censBounds b l u).2 (censBounds b l u).2) mass)
      (censBounds b l u) x) :
    (Spec.censLaw b.law l u).real
      (Icc x.1 x.2 ∪ {y : ℝ | (y : EReal) = (censBounds b l u).1 ∨ (y : EReal) = (censBounds b l u).2})
      = mass := by
  rw [b.censLaw_cut (le_of_lt hp)]
  unfold Proper at hp
  obtain ⟨⟨hcon, k1, k2, k3, k4⟩, -⟩ := hx
  set L := (censBounds b l u).1
  set U := (censBounds b l u).2
  have hL : L ≠ ⊤ := ne_top_of_lt hp
  have hU : U ≠ ⊥ := ne_bot_of_gt hp
  have eL : censPdfAt b L U L = b.cdf L := by
    unfold censPdfAt
    by_cases h : L = ⊥
    · simp [h, b.cdf_bot]
    · have e : ((L.toReal : ℝ) : EReal) = L := EReal.coe_toReal hL h
      rw [if_neg (by tauto), censPdf_eq, e]
      simp [hp.ne]
  have eU : censPdfAt b L U U = 1 - b.cdf U := by
    unfold censPdfAt
    by_cases h : U = ⊤
    · simp [h, b.cdf_top]
    · have e : ((U.toReal : ℝ) : EReal) = U := EReal.coe_toReal h hU
      rw [if_neg (by tauto), censPdf_eq, e]
      simp [hb]
  have ec : ∀ z : ℝ, L ≤ (z : EReal) → (z : EReal) ≤ U → censCdf b L U z = b.cdf z := by
    intro z h1 h2
    simp [censCdf, not_lt.2 h1, not_lt.2 h2]
  simp only [intervalLoss] at hcon
  rw [ec _ k1 k2, ec _ k3 k4, eL, eU] at hcon
  unfold Spec.censLaw
  have hmeas : MeasurableSet (Icc x.1 x.2 ∪ {y : ℝ | (y : EReal) = L ∨ (y : EReal) = U}) := by
    refine measurableSet_Icc.union (MeasurableSet.union ?_ ?_)
    · exact measurable_coe_real_ereal (measurableSet_singleton L)
    · exact measurable_coe_real_ereal (measurableSet_singleton U)
  rw [map_measureReal_apply (clip_meas L U) hmeas]
  have hset : (Spec.clipFn L U ⁻¹' (Icc x.1 x.2 ∪ {y : ℝ | (y : EReal) = L ∨ (y : EReal) = U}))
      = {y : ℝ | (y : EReal) ≤ L} ∪ Icc x.1 x.2 ∪ {y : ℝ | U ≤ (y : EReal)} := by
    ext y
    have hcl := clip_coe hL hU y
    simp only [mem_preimage, mem_union, mem_setOf_eq, hcl]
    rcases le_or_gt (y : EReal) L with h | h
    · have : max L (min U (y : EReal)) = L := by
        rw [min_eq_right (h.trans hp.le), max_eq_left h]
      rw [this]; simp [h]
    · rcases le_or_gt U (y : EReal) with h' | h'
      · have : max L (min U (y : EReal)) = U := by
          rw [min_eq_left h', max_eq_right hp.le]
        rw [this]; simp [h']
      · have : max L (min U (y : EReal)) = y := by
          rw [min_eq_right h'.le, max_eq_right h.le]
        rw [this, clip_mid h.le h'.le]
        simp [h.ne', h'.ne, not_le.2 h, not_le.2 h']
  rw [hset]
  have hae : ({y : ℝ | (y : EReal) ≤ L} ∪ Icc x.1 x.2 ∪ {y : ℝ | U ≤ (y : EReal)} : Set ℝ)
      =ᵐ[b.law] ({y : ℝ | (y : EReal) ≤ L} ∪ {y : ℝ | (x.1 : EReal) < y ∧ (y : EReal) ≤ x.2}
        ∪ {y : ℝ | U < (y : EReal) ∧ (y : EReal) ≤ ⊤} : Set ℝ) := by
    have n1 : ∀ᵐ (y : ℝ) ∂b.law, y ≠ x.1 := by
      rw [ae_iff]; simpa using b.atomless hb x.1
    have n2 : ∀ᵐ (y : ℝ) ∂b.law, (y : EReal) ≠ U := by
      rw [ae_iff]
      simp only [not_not]
      by_cases h : U = ⊤
      · simp [h]
      · have e : ((U.toReal : ℝ) : EReal) = U := EReal.coe_toReal h hU
        rw [← e]
        simpa using b.atomless hb U.toReal
    filter_upwards [n1, n2] with y h1 h2
    apply propext
    show ((_ ∨ _) ∨ _) ↔ ((_ ∨ _) ∨ _)
    have a1 : y ∈ Icc x.1 x.2 ↔ ((x.1 : EReal) < y ∧ (y : EReal) ≤ x.2) := by
      rw [EReal.coe_lt_coe_iff, EReal.coe_le_coe_iff, mem_Icc]
      exact ⟨fun h => ⟨lt_of_le_of_ne h.1 (Ne.symm h1), h.2⟩, fun h => ⟨h.1.le, h.2⟩⟩
    have a2 : (U ≤ (y : EReal)) ↔ (U < (y : EReal) ∧ (y : EReal) ≤ ⊤) :=
      ⟨fun h => ⟨lt_of_le_of_ne h (Ne.symm h2), le_top⟩, fun h => h.1.le⟩
    exact or_congr (or_congr Iff.rfl a1) a2
  have hord' : (x.1 : EReal) ≤ x.2 := by exact_mod_cast hord
  have d1 : Disjoint {y : ℝ | (y : EReal) ≤ L} {y : ℝ | (x.1 : EReal) < y ∧ (y : EReal) ≤ x.2} := by
    rw [Set.disjoint_left]
    intro y h h'
    exact absurd (lt_of_le_of_lt (le_trans h k1) h'.1) (lt_irrefl _)
  have d2 : Disjoint ({y : ℝ | (y : EReal) ≤ L} ∪ {y : ℝ | (x.1 : EReal) < y ∧ (y : EReal) ≤ x.2})
      {y : ℝ | U < (y : EReal) ∧ (y : EReal) ≤ ⊤} := by
    rw [Set.disjoint_left]
    rintro y (h | h) h'
    · exact absurd (lt_of_le_of_lt (le_trans h hp.le) h'.1) (lt_irrefl _)
    · exact absurd (lt_of_le_of_lt (le_trans h.2 k4) h'.1) (lt_irrefl _)
  rw [measureReal_congr hae, measureReal_union d2 ((meas_gt U).inter (meas_le ⊤)),
    measureReal_union d1 ((meas_gt _).inter (meas_le _)), b.mass_gap hord', b.mass_gap le_top,
    b.cdf_top]
  have : b.law.real {y : ℝ | (y : EReal) ≤ L} = b.cdf L := rfl
  rw [this]
  linarith

theorem unif_cdf {z : ℝ} (h0 : 0 ≤ z) (h1 : z ≤ 1) : (unif 0 1 (by norm_num)).cdf z = z := by
  rw [Base.cdf_coe, unif_real _ _ _ _ measurableSet_Iic]
  have : Iic z ∩ Icc (0 : ℝ) 1 = Icc 0 z := by
    ext y
    simp only [mem_inter_iff, mem_Iic, mem_Icc]
    constructor
    · rintro ⟨a, b, c⟩; exact ⟨b, a⟩
    · rintro ⟨a, b⟩; exact ⟨b, a, b.trans h1⟩
  rw [this, Real.volume_real_Icc_of_le h0]
  norm_num

theorem unif_bounds : censBounds (unif 0 1 (by norm_num)) ((0.1 : ℝ) : EReal) ((0.9 : ℝ) : EReal)
    = (((0.1 : ℝ) : EReal), ((0.9 : ℝ) : EReal)) := by
  show (max ((0 : ℝ) : EReal) _, min ((1 : ℝ) : EReal) _) = _
  rw [max_eq_right (EReal.coe_le_coe_iff.2 (by norm_num)),
    min_eq_right (EReal.coe_le_coe_iff.2 (by norm_num))]

/-- The interval of Uniform(0, 1) censored to [0.1, 0.9] at mass 0.94: whatever exact minimiser is used,
the interval holds at most 0.84 of the probability. -/
theorem hdi_censored_wrong :
    ∃ b : Base, b.discrete = false ∧ ∃ l u : ℝ, Proper b l u ∧ ∀ minimize : Minimize, Exact minimize →
      let x := censoredHdi minimize b (censBounds b l u).1 (censBounds b l u).2 0.94
      x.1 ≤ x.2 ∧ (Spec.censLaw b.law l u).real (Icc x.1 x.2) ≤ 0.84 := by
  have hp : Proper (unif 0 1 (by norm_num)) ((0.1 : ℝ) : EReal) ((0.9 : ℝ) : EReal) := by
    unfold Proper
    rw [unif_bounds]
    exact EReal.coe_lt_coe_iff.2 (by norm_num)
  refine ⟨unif 0 1 (by norm_num), rfl, 0.1, 0.9, hp, ?_⟩
  intro mn hmn
  have hp' : ((0.1 : ℝ) : EReal) < ((0.9 : ℝ) : EReal) := EReal.coe_lt_coe_iff.2 (by norm_num)
  set b := unif 0 1 (by norm_num) with hbdef
  have hcl : ∀ z : ℝ, ((0.1 : ℝ) : EReal) ≤ z → (z : EReal) ≤ ((0.9 : ℝ) : EReal) →
      censCdf b ((0.1 : ℝ) : EReal) ((0.9 : ℝ) : EReal) z = z := by
    intro z h1 h2
    have h1' := EReal.coe_le_coe_iff.1 h1
    have h2' := EReal.coe_le_coe_iff.1 h2
    simp only [censCdf, not_lt.2 h1, if_false, gt_iff_lt, not_lt.2 h2]
    exact unif_cdf (by linarith) (by linarith)
  have eL : censPdfAt b ((0.1 : ℝ) : EReal) ((0.9 : ℝ) : EReal) ((0.1 : ℝ) : EReal) = 0.1 := by
    unfold censPdfAt
    rw [if_neg (by simp), censPdf_eq, EReal.toReal_coe, if_neg hp'.ne, if_pos rfl]
    exact unif_cdf (by norm_num) (by norm_num)
  have eU : censPdfAt b ((0.1 : ℝ) : EReal) ((0.9 : ℝ) : EReal) ((0.9 : ℝ) : EReal) = 0.1 := by
    unfold censPdfAt
    rw [if_neg (by simp), censPdf_eq, EReal.toReal_coe, if_pos rfl]
    have : b.discrete = false := rfl
    rw [this, if_neg (by simp), unif_cdf (by norm_num) (by norm_num)]
    norm_num
  have hfeas : ∀ z : ℝ × ℝ, ((0.1 : ℝ) : EReal) ≤ z.1 → (z.1 : EReal) ≤ ((0.9 : ℝ) : EReal) →
      ((0.1 : ℝ) : EReal) ≤ z.2 → (z.2 : EReal) ≤ ((0.9 : ℝ) : EReal) →
      intervalLoss (censCdf b ((0.1 : ℝ) : EReal) ((0.9 : ℝ) : EReal))
        (censPdfAt b ((0.1 : ℝ) : EReal) ((0.9 : ℝ) : EReal) ((0.1 : ℝ) : EReal)
          + censPdfAt b ((0.1 : ℝ) : EReal) ((0.9 : ℝ) : EReal) ((0.9 : ℝ) : EReal)) 0.94 z
        = z.2 - z.1 - 0.74 := by
    intro z h1 h2 h3 h4
    simp only [intervalLoss]
    rw [hcl _ h1 h2, hcl _ h3 h4, eL, eU]
    norm_num
    ring
  have hsol : ∃ x, Solved intervalShort
      (intervalLoss (censCdf b ((0.1 : ℝ) : EReal) ((0.9 : ℝ) : EReal))
        (censPdfAt b ((0.1 : ℝ) : EReal) ((0.9 : ℝ) : EReal) ((0.1 : ℝ) : EReal)
          + censPdfAt b ((0.1 : ℝ) : EReal) ((0.9 : ℝ) : EReal) ((0.9 : ℝ) : EReal)) 0.94)
      (((0.1 : ℝ) : EReal), ((0.9 : ℝ) : EReal)) x := by
    refine ⟨(0.1, 0.84), ⟨?_, le_rfl, hp'.le, ?_, ?_⟩, ?_⟩
    · rw [hfeas]
      · norm_num
      · exact le_rfl
      · exact hp'.le
      · exact EReal.coe_le_coe_iff.2 (by norm_num)
      · exact EReal.coe_le_coe_iff.2 (by norm_num)
    · exact EReal.coe_le_coe_iff.2 (by norm_num)
    · exact EReal.coe_le_coe_iff.2 (by norm_num)
    · rintro z ⟨h0, h1, h2, h3, h4⟩
      rw [hfeas z h1 h2 h3 h4] at h0
      have e : intervalShort (0.1, 0.84) = ((0.74 : ℝ) : EReal) := by
        unfold intervalShort
        rw [if_neg (by norm_num)]
        norm_num
      unfold intervalShort at e ⊢
      rw [e, if_neg (by linarith)]
      exact EReal.coe_le_coe_iff.2 (by linarith)
  have hx := hmn _ _ _ (censPpf b ((0.1 : ℝ) : EReal) ((0.9 : ℝ) : EReal) ((1 - 0.94) / 2),
    censPpf b ((0.1 : ℝ) : EReal) ((0.9 : ℝ) : EReal) (1 - (1 - 0.94) / 2)) hsol
  have hm := hdi_censored_mass b rfl ((0.1 : ℝ) : EReal) ((0.9 : ℝ) : EReal) hp 0.94
  rw [unif_bounds] at hm
  rw [unif_bounds]
  show (censoredHdi mn b ((0.1 : ℝ) : EReal) ((0.9 : ℝ) : EReal) 0.94).1 ≤
    (censoredHdi mn b ((0.1 : ℝ) : EReal) ((0.9 : ℝ) : EReal) 0.94).2 ∧ _
  change Solved _ _ _ (censoredHdi mn b ((0.1 : ℝ) : EReal) ((0.9 : ℝ) : EReal) 0.94) at hx
  set x := censoredHdi mn b ((0.1 : ℝ) : EReal) ((0.9 : ℝ) : EReal) 0.94
  have hord : x.2 - x.1 = 0.74 := by
    obtain ⟨⟨h0, h1, h2, h3, h4⟩, -⟩ := hx
    rw [hfeas x h1 h2 h3 h4] at h0
    linarith
  have hle : x.1 ≤ x.2 := by linarith
  refine ⟨hle, ?_⟩
  have hm := hm x hle hx
  have p1 : (Spec.censLaw b.law ((0.1 : ℝ) : EReal) ((0.9 : ℝ) : EReal)).real {0.1} = 0.1 := by
    rw [b.cens_point hp', if_pos rfl]
    exact unif_cdf (by norm_num) (by norm_num)
  have p2 : (Spec.censLaw b.law ((0.1 : ℝ) : EReal) ((0.9 : ℝ) : EReal)).real {0.9} = 0.1 := by
    rw [b.cens_point hp', if_neg hp'.ne', if_pos rfl, ← b.upper_tail_cont rfl,
      unif_cdf (by norm_num) (by norm_num)]
    norm_num
  have hprob : IsProbabilityMeasure (Spec.censLaw b.law ((0.1 : ℝ) : EReal) ((0.9 : ℝ) : EReal)) := by
    have := b.prob
    exact Measure.isProbabilityMeasure_map (clip_meas _ _).aemeasurable
  have hone : ∀ c : ℝ, c ∉ Icc x.1 x.2 → (c = 0.1 ∨ c = 0.9) →
      (Spec.censLaw b.law ((0.1 : ℝ) : EReal) ((0.9 : ℝ) : EReal)).real {c} = 0.1 →
      (Spec.censLaw b.law ((0.1 : ℝ) : EReal) ((0.9 : ℝ) : EReal)).real (Icc x.1 x.2) ≤ 0.84 := by
    intro c hc hc' hv
    have hd : Disjoint (Icc x.1 x.2) {c} := by simpa using hc
    have h1 := measureReal_union (μ := Spec.censLaw b.law ((0.1 : ℝ) : EReal) ((0.9 : ℝ) : EReal))
      hd (measurableSet_singleton c)
    have h2 : (Spec.censLaw b.law ((0.1 : ℝ) : EReal) ((0.9 : ℝ) : EReal)).real (Icc x.1 x.2 ∪ {c}) ≤
        0.94 := by
      rw [← hm]
      refine measureReal_mono ?_ (measure_ne_top _ _)
      rintro y (h | h)
      · exact Or.inl h
      · right
        rw [mem_singleton_iff] at h
        rcases hc' with e | e
        · left; rw [h, e]
        · right; rw [h, e]
    rw [h1, hv] at h2
    norm_num at h2 ⊢
    linarith
  by_cases h : x.1 ≤ 0.1
  · refine hone 0.9 (fun h' => ?_) (Or.inr rfl) p2
    have := h'.2
    norm_num at *
    linarith
  · exact hone 0.1 (fun h' => h h'.1) (Or.inl rfl) p1

end Verif.Props
