import Verif.Model.HdiLong
import Verif.Props.Truncation
import Verif.Props.Hdi
import Verif.Props.Grids
import Verif.Props.Intervals

/-! # C90: highest-density interval of a discrete distribution with many values -/

namespace Verif.Props
open Verif Verif.Modifier Verif.Interval Verif.Hdi Verif.HdiLong Verif.Spec MeasureTheory

theorem discreteXvals_length (l u : ℤ) (h : l ≤ u) :
    (discreteXvals l u 200).length = if u - l ≤ 200 then (u - l + 1).toNat else 200 := by
  unfold discreteXvals
  dsimp only
  by_cases h1 : u - l ≤ ((200 : ℕ) : ℤ)
  · rw [if_pos h1, if_pos (by exact_mod_cast h1)]
    simp
    omega
  · rw [if_neg h1, if_neg (show ¬ u - l ≤ 200 by exact_mod_cast h1)]
    simp [linspaceInt]

/-- C90: the values are ranked by probability exactly if the largest and the smallest grid value are
less than 198 apart; otherwise the continuous optimiser is used. -/
theorem hdi_switch (argsort : List (ℤ × ℝ) → List (ℤ × ℝ)) (minimize : Minimize) (b : Base) (mass : ℝ)
    (lo hi : ℝ) (l u : ℤ) (hf : finiteEndpoints b .full = .ok ((lo : EReal), (hi : EReal)))
    (hl : IntegerPart lo l) (hu : IntegerPart hi u) (hlu : l ≤ u) :
    findHdi argsort minimize b mass = if u - l < 198 then
      discreteHdi mass (argsort (withMass (fun k => b.pdf k) (discreteXvals l u 200)))
      else longHdi minimize b mass := by
  obtain ⟨l', e1, p1⟩ := pyInt_part lo
  obtain ⟨u', e2, p2⟩ := pyInt_part hi
  have h1 : l' = l := by exact_mod_cast integerPart_unique p1 hl
  have h2 : u' = u := by exact_mod_cast integerPart_unique p2 hu
  subst h1 h2
  have hx : xvalsDiscrete b .full none = .ok (discreteXvals l' u' 200) := by
    simp only [xvalsDiscrete, hf, Except.ok_bind', e1, e2, Option.getD_none]
    rfl
  unfold findHdi
  rw [hx]
  simp only [Except.ok_bind']
  rw [discreteXvals_length _ _ hlu]
  by_cases h : u' - l' < 198
  · rw [if_pos h, if_pos]
    rw [if_pos (by omega)]
    omega
  · rw [if_neg h, if_neg]
    split <;> omega

theorem step_mass (b : Base) {x1 x2 mass : ℝ} (h : x1 ≤ x2)
    (hc : intervalLoss (fun x => b.cdf x) 0 mass (x1, x2) = 0) : b.law.real (Set.Ioc x1 x2) = mass := by
  have : b.law.real {y : ℝ | (x1 : EReal) < (y : EReal) ∧ (y : EReal) ≤ (x2 : EReal)}
      = b.cdf (x2 : EReal) - b.cdf (x1 : EReal) := b.mass_gap (by exact_mod_cast h)
  have e : {y : ℝ | (x1 : EReal) < (y : EReal) ∧ (y : EReal) ≤ (x2 : EReal)} = Set.Ioc x1 x2 := by
    ext y; simp
  rw [e] at this
  simp only [intervalLoss] at hc
  linarith

/-- C90: when the optimiser meets its constraint, the reported interval has at least the requested
mass. Missing from the English claim: the constraint can be met for countably many masses only, see
`hdi_long_infeasible`. -/
theorem hdi_long_covers_partial (minimize : Minimize) (b : Base) (hd : b.discrete = true) (mass : ℝ)
    (start : EReal × EReal) (hs : eti b true true 0 none (some mass) = .ok start) (x1 x2 : ℝ)
    (hx : minimize intervalShort (intervalLoss (fun x => b.cdf x) 0 mass) (b.lo, b.hi) start = (x1, x2))
    (h12 : x1 ≤ x2) (hc : intervalLoss (fun x => b.cdf x) 0 mass (x1, x2) = 0) :
    ∃ l u : ℤ, longHdi minimize b mass = .ok (l, u) ∧ IntegerPart x1 l ∧ IntegerPart x2 u ∧
      mass ≤ b.law.real (Set.Icc (l : ℝ) u) := by
  obtain ⟨l, e1, p1⟩ := pyInt_part x1
  obtain ⟨u, e2, p2⟩ := pyInt_part x2
  refine ⟨l, u, ?_, p1, p2, ?_⟩
  · simp only [longHdi, hs, Except.ok_bind', hx, e1, e2]
    rfl
  rw [← step_mass b h12 hc]
  apply ENNReal.toReal_mono (measure_ne_top _ _)
  apply measure_mono_ae
  filter_upwards [(b.discrete_law hd).1] with y hy hmem
  obtain ⟨k, rfl⟩ := hy
  obtain ⟨ha, hb⟩ : x1 < (k : ℝ) ∧ (k : ℝ) ≤ x2 := hmem
  obtain ⟨-, a1, b1, c1⟩ := p1
  obtain ⟨-, a2, b2, c2⟩ := p2
  rw [abs_lt] at a1 a2
  constructor
  · have : (l : ℝ) < k + 1 := by
      rcases le_total 0 x1 with h | h
      · linarith [(b1 h).2]
      · linarith [a1.1]
    have : l < k + 1 := by exact_mod_cast this
    exact_mod_cast (by omega : l ≤ k)
  · have : (k : ℝ) < u + 1 := by
      rcases le_total 0 x2 with h | h
      · linarith [a2.2]
      · linarith [(c2 h).1]
    have : k < u + 1 := by exact_mod_cast this
    exact_mod_cast (by omega : k ≤ u)

/-- C90, what fails: the interval is never the shortest one when its lower end is not negative. The
integers above the lower end have the requested mass already, so the lower end adds its own
probability on top. -/
theorem hdi_long_not_shortest (minimize : Minimize) (b : Base) (hd : b.discrete = true) (mass : ℝ)
    (start : EReal × EReal) (hs : eti b true true 0 none (some mass) = .ok start) (x1 x2 : ℝ)
    (hx : minimize intervalShort (intervalLoss (fun x => b.cdf x) 0 mass) (b.lo, b.hi) start = (x1, x2))
    (h0 : 0 ≤ x1) (h12 : x1 ≤ x2) (hc : intervalLoss (fun x => b.cdf x) 0 mass (x1, x2) = 0) :
    ∃ l u : ℤ, longHdi minimize b mass = .ok (l, u) ∧
      b.law.real (Set.Icc ((l + 1 : ℤ) : ℝ) u) = mass ∧
      b.law.real (Set.Icc (l : ℝ) u) = mass + b.law.real {(l : ℝ)} := by
  obtain ⟨l, u, h1, p1, p2, -⟩ := hdi_long_covers_partial minimize b hd mass start hs x1 x2 hx h12 hc
  obtain ⟨-, a1, b1, c1⟩ := p1
  obtain ⟨-, a2, b2, c2⟩ := p2
  rw [abs_lt] at a1 a2
  have hb1 := b1 h0
  have hb2 := b2 (h0.trans h12)
  have hmain : b.law.real (Set.Icc ((l + 1 : ℤ) : ℝ) u) = mass := by
    rw [← step_mass b h12 hc]
    apply measureReal_congr
    filter_upwards [(b.discrete_law hd).1] with y hy
    obtain ⟨k, rfl⟩ := hy
    apply propext
    show ((l + 1 : ℤ) : ℝ) ≤ k ∧ (k : ℝ) ≤ u ↔ x1 < k ∧ (k : ℝ) ≤ x2
    constructor
    · rintro ⟨h, h'⟩
      push_cast at h
      exact ⟨by linarith, by linarith⟩
    · rintro ⟨h, h'⟩
      have e1 : (l : ℝ) < k := by linarith
      have e1 : l < k := by exact_mod_cast e1
      have e2 : (k : ℝ) < u + 1 := by linarith
      have e2 : k < u + 1 := by exact_mod_cast e2
      exact ⟨by exact_mod_cast (by omega : l + 1 ≤ k), by exact_mod_cast (by omega : k ≤ u)⟩
  have hlu : l ≤ u := by
    have : (l : ℝ) < u + 1 := by linarith
    have : l < u + 1 := by exact_mod_cast this
    omega
  refine ⟨l, u, h1, hmain, ?_⟩
  have hsplit : b.law.real (Set.Icc (l : ℝ) u)
      = b.law.real (Set.Icc ((l + 1 : ℤ) : ℝ) u ∪ {(l : ℝ)}) := by
    apply measureReal_congr
    filter_upwards [(b.discrete_law hd).1] with y hy
    obtain ⟨k, rfl⟩ := hy
    apply propext
    show (l : ℝ) ≤ k ∧ (k : ℝ) ≤ u ↔ (((l + 1 : ℤ) : ℝ) ≤ k ∧ (k : ℝ) ≤ u) ∨ (k : ℝ) = l
    norm_cast
    omega
  rw [hsplit, measureReal_union _ (MeasurableSet.singleton _), hmain]
  rw [Set.disjoint_singleton_right]
  rintro ⟨h, -⟩
  have : l + 1 ≤ l := by exact_mod_cast h
  omega

/-- C90, what fails: for every discrete distribution the constraint can be met for countably many
masses only. -/
theorem hdi_long_infeasible (b : Base) (hd : b.discrete = true) :
    {mass : ℝ | ∃ x, intervalLoss (fun x => b.cdf x) 0 mass x = 0}.Countable := by
  have hfl : ∀ x : ℝ, b.cdf (x : EReal) = b.cdf (((⌊x⌋ : ℤ) : ℝ) : EReal) := by
    intro x
    rw [b.cdf_coe, b.cdf_coe]
    apply measureReal_congr
    filter_upwards [(b.discrete_law hd).1] with y hy
    obtain ⟨k, rfl⟩ := hy
    apply propext
    show (k : ℝ) ≤ x ↔ (k : ℝ) ≤ (⌊x⌋ : ℝ)
    rw [Int.cast_le, Int.le_floor]
  refine (Set.countable_range (fun p : ℤ × ℤ =>
    b.cdf ((p.2 : ℝ) : EReal) - b.cdf ((p.1 : ℝ) : EReal))).mono ?_
  rintro mass ⟨⟨x1, x2⟩, h⟩
  refine ⟨(⌊x1⌋, ⌊x2⌋), ?_⟩
  simp only [intervalLoss] at h
  show b.cdf (((⌊x2⌋ : ℤ) : ℝ) : EReal) - b.cdf (((⌊x1⌋ : ℤ) : ℝ) : EReal) = mass
  rw [← hfl, ← hfl]
  linarith

/-- C90: for the uniform distribution on {0, …, n} only multiples of `1/(n+1)` are possible masses. -/
theorem hdi_long_dice (n : ℕ) (mass : ℝ) (x : ℝ × ℝ)
    (h : intervalLoss (fun x => (dice n).cdf x) 0 mass x = 0) : ∃ z : ℤ, mass * (n + 1) = z := by
  classical
  have hc : ∀ x : ℝ, ∃ z : ℤ, (dice n).cdf (x : EReal) * ((n : ℝ) + 1) = z := by
    intro x
    rw [(dice n).cdf_coe]
    have : (dice n).law.real (Set.Iic x) = _ := diceLaw_real n (Set.Iic x)
    rw [this, ← Finset.sum_filter, Finset.sum_const, nsmul_eq_mul]
    refine ⟨((Finset.range (n + 1)).filter fun k : ℕ => (k : ℝ) ∈ Set.Iic x).card, ?_⟩
    have : (n : ℝ) + 1 ≠ 0 := by positivity
    field_simp
    norm_cast
  obtain ⟨a, ha⟩ := hc x.1
  obtain ⟨c, hc⟩ := hc x.2
  simp only [intervalLoss] at h
  refine ⟨c - a, ?_⟩
  push_cast
  rw [← ha, ← hc]
  have : mass = (dice n).cdf (x.2 : EReal) - (dice n).cdf (x.1 : EReal) := by linarith
  rw [this]; ring

/-- the default mass 0.94 cannot be met for a uniform distribution on {0, …, 250} -/
example (x : ℝ × ℝ) : intervalLoss (fun x => (dice 250).cdf x) 0 0.94 x ≠ 0 := by
  intro h
  obtain ⟨z, hz⟩ := hdi_long_dice 250 0.94 x h
  have h1 : (235 : ℝ) < z := by rw [← hz]; norm_num
  have h2 : (z : ℝ) < 236 := by rw [← hz]; norm_num
  have h1 : 235 < z := by exact_mod_cast h1
  have h2 : z < 236 := by exact_mod_cast h2
  omega

/-- the hypotheses of the two theorems are met: 100 of the 251 values of a die, found by a minimiser
that returns (0, 100) -/
example : (∃ start, eti (dice 250) true true 0 none (some (100 / 251)) = .ok start) ∧
    intervalLoss (fun x => (dice 250).cdf x) 0 (100 / 251) (0, 100) = 0 := by
  classical
  constructor
  · obtain ⟨lo, hi, h, -⟩ := eti_discrete (dice 250) rfl 0 (100 / 251) none (by norm_num) (by norm_num)
    exact ⟨_, h⟩
  · have hc : ∀ m : ℕ, m ≤ 250 → (dice 250).cdf ((m : ℝ) : EReal) = ((m : ℝ) + 1) / 251 := by
      intro m hm
      rw [(dice 250).cdf_coe]
      have : (dice 250).law.real (Set.Iic (m : ℝ)) = _ := diceLaw_real 250 (Set.Iic (m : ℝ))
      rw [this, ← Finset.sum_filter, Finset.sum_const, nsmul_eq_mul]
      have hcard : ((Finset.range (250 + 1)).filter fun k : ℕ => (k : ℝ) ∈ Set.Iic (m : ℝ))
          = Finset.range (m + 1) := by
        ext k
        simp only [Finset.mem_filter, Finset.mem_range, Set.mem_Iic, Nat.cast_le]
        omega
      rw [hcard, Finset.card_range]
      push_cast
      ring
    have h0 := hc 0 (by norm_num)
    have h1 := hc 100 (by norm_num)
    simp only [intervalLoss]
    norm_num at h0 h1 ⊢
    rw [h0, h1]
    norm_num

end Verif.Props
