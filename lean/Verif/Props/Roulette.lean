import Verif.Model.Roulette
import Mathlib.Algebra.Order.Floor.Ring
import Mathlib.Algebra.Order.BigOperators.Group.List

/-!
# C34, C35: the roulette grid and the histogram it produces
-/

namespace Verif.Props
open Verif Verif.Roulette

/-! ## C34 -/

/-- the press hits the cell in column `c` and row `r` (rows counted from 1) of the grid -/
def Hits (g : Grid) (p : Press) (r : ℤ) (c : ℕ) : Prop :=
  p.inAxes = true ∧ (c : ℝ) ≤ p.x ∧ p.x < c + 1 ∧ c < g.ncols ∧ (r : ℝ) - 1 < p.y ∧ p.y ≤ r ∧
    r ≤ g.nrows

theorem hits_iff (g : Grid) (p : Press) (r : ℤ) (c : ℕ) :
    Hits g p r c ↔ p.inAxes = true ∧ ⌊p.x⌋ = (c : ℤ) ∧ c < g.ncols ∧ ⌈p.y⌉ = r ∧ r ≤ g.nrows := by
  unfold Hits
  rw [Int.floor_eq_iff, Int.ceil_eq_iff]
  push_cast
  tauto

/-- C34: a click on a row above the stack raises the stack to that row, a click on the top row or below
lowers it to just under the clicked row; nothing else changes. -/
theorem click_effect (g : Grid) (p : Press) (r : ℤ) (c : ℕ) (hr : 0 ≤ r) (h : Hits g p r c) :
    (click g p).weights c = (if g.weights c < r then r else r - 1) ∧
    (∀ c', c' ≠ c → (click g p).weights c' = g.weights c' ∧
      ∀ row, (click g p).filled row c' = g.filled row c') ∧
    (click g p).nrows = g.nrows ∧ (click g p).ncols = g.ncols := by
  obtain ⟨h1, h2, h3, h4, h5⟩ := (hits_iff g p r c).mp h
  have hc : (c : ℤ) < g.ncols := by exact_mod_cast h3
  have hcond : (0 : ℤ) ≤ (c : ℤ) ∧ (c : ℤ) < g.ncols ∧ 0 ≤ r ∧ r ≤ g.nrows := ⟨by positivity, hc, hr, h5⟩
  unfold click
  simp only [h1, if_true, h2, h4, if_pos hcond, Int.toNat_natCast]
  refine ⟨?_, ?_, trivial, trivial⟩
  · by_cases hw : g.weights c < r
    · simp [hw, not_le.mpr hw]
    · simp [hw, not_lt.mp hw]
  · intro c' hc'
    refine ⟨by simp [hc'], ?_⟩
    intro row
    by_cases hw : g.weights c < r
    · simp [hc', not_le.mpr hw]
    · simp [hc', not_lt.mp hw]

/-- a click on the third row of an empty column puts three chips; clicking there again leaves two -/
example : Hits (fresh 5 4) ⟨true, 1.5, 2.5⟩ 3 1 := by
  refine ⟨rfl, ?_, ?_, by simp [fresh], ?_, ?_, by simp [fresh]⟩ <;> norm_num

/-- C34: a press outside the grid changes nothing. -/
theorem click_outside (g : Grid) (p : Press) (h : ∀ r c, 0 ≤ r → ¬ Hits g p r c) : click g p = g := by
  unfold click
  split
  · rename_i h1
    dsimp only
    split
    · rename_i h2
      exfalso
      refine h ⌈p.y⌉ ⌊p.x⌋.toNat h2.2.2.1 ((hits_iff _ _ _ _).mpr ⟨h1, ?_, ?_, rfl, h2.2.2.2⟩)
      · exact (Int.toNat_of_nonneg h2.1).symm
      · have := Int.toNat_of_nonneg h2.1
        have h3 := h2.2.1
        omega
    · rfl
  · rfl

/-- the counts are in range and the coloured cells of every column are exactly the lowest ones, as many
as the count says -/
structure GridOk (g : Grid) (low : ℤ) : Prop where
  lower : ∀ c < g.ncols, low ≤ g.weights c
  upper : ∀ c < g.ncols, g.weights c ≤ g.nrows
  shown : ∀ c < g.ncols, ∀ row < g.nrows, (g.filled row c = true ↔ (row : ℤ) < g.weights c)

theorem fresh_ok (r c : ℕ) (low : ℤ) (h : low ≤ 0) : GridOk (fresh r c) low :=
  ⟨fun _ _ => h, fun _ _ => by simp [fresh], fun _ _ row _ => by simp [fresh]⟩

theorem click_ok (g : Grid) (p : Press) (low : ℤ) (hlow : low ≤ 0)
    (hp : low = 0 → 0 < p.y ∨ ¬ (-1 < p.y)) (h1 : -1 ≤ low) (h : GridOk g low) :
    GridOk (click g p) low := by
  by_cases hh : ∃ r c, 0 ≤ r ∧ Hits g p r c
  · obtain ⟨r, c, hr, hh⟩ := hh
    obtain ⟨e1, e2, e3, e4⟩ := click_effect g p r c hr hh
    obtain ⟨a1, a2, a3, a4, a5⟩ := (hits_iff g p r c).mp hh
    have hrlow : low ≤ r - 1 := by
      rcases eq_or_lt_of_le hlow with h0 | h0
      · have : 0 < r := by
          rcases hp h0 with hy | hy
          · rw [← a4]; exact Int.ceil_pos.mpr hy
          · exfalso
            have h6 := hh.2.2.2.2.1
            have h7 : (0 : ℝ) ≤ r := by exact_mod_cast hr
            apply hy
            linarith
        omega
      · omega
    refine ⟨?_, ?_, ?_⟩
    · intro c' hc'
      rw [e4] at hc'
      by_cases hcc : c' = c
      · subst hcc
        rw [e1]
        split <;> omega
      · rw [(e2 c' hcc).1]; exact h.lower c' hc'
    · intro c' hc'
      rw [e4] at hc'
      rw [e3]
      by_cases hcc : c' = c
      · subst hcc
        rw [e1]
        split <;> omega
      · rw [(e2 c' hcc).1]; exact h.upper c' hc'
    · intro c' hc' row hrow
      rw [e4] at hc'
      rw [e3] at hrow
      by_cases hcc : c' = c
      · subst hcc
        have hcond : (0 : ℤ) ≤ (c' : ℤ) ∧ (c' : ℤ) < g.ncols ∧ 0 ≤ r ∧ r ≤ g.nrows :=
          ⟨by positivity, by exact_mod_cast hc', hr, a5⟩
        have hs := h.shown c' hc' row hrow
        unfold click
        simp only [a1, if_true, a2, a4, if_pos hcond, Int.toNat_natCast]
        by_cases hw : g.weights c' < r
        · simp only [ge_iff_le, not_le.mpr hw, decide_false, Bool.false_eq_true, if_false, true_and,
            Function.update_self]
          by_cases h6 : (row : ℤ) < r
          · simp [h6]
          · simp only [h6, if_false, iff_false]
            rw [hs]; omega
        · simp [not_lt.mp hw, hrow]
      · rw [(e2 c' hcc).1, (e2 c' hcc).2]; exact h.shown c' hc' row hrow
  · push Not at hh
    rw [click_outside g p hh]
    exact h

/-- C34: after any sequence of clicks and resizes on a new grid no column holds more chips than there
are rows, and the coloured cells show the counts.  Missing: the lower bound is -1, not 0 (see
`negative_chips`). -/
theorem grid_invariant_partial (r c : ℕ) (l : List Event) : GridOk (runEvents (fresh r c) l) (-1) := by
  have main : ∀ g : Grid, GridOk g (-1) → GridOk (runEvents g l) (-1) := by
    induction l with
    | nil => exact fun g h => h
    | cons e l ih =>
      intro g h
      apply ih
      cases e with
      | press p => exact click_ok g p (-1) (by norm_num) (by norm_num) le_rfl h
      | resize r c => exact fresh_ok r c (-1) (by norm_num)
  exact main _ (fresh_ok r c (-1) (by norm_num))

/-- C34: if no click is in the margin just below the first row, counts are never negative. -/
theorem grid_invariant_inside (r c : ℕ) (l : List Event)
    (h : ∀ p, Event.press p ∈ l → 0 < p.y ∨ p.y ≤ -1) : GridOk (runEvents (fresh r c) l) 0 := by
  have main : ∀ g : Grid, GridOk g 0 → GridOk (runEvents g l) 0 := by
    induction l with
    | nil => exact fun g h => h
    | cons e l ih =>
      intro g hg
      apply ih (fun p hp => h p (List.mem_cons_of_mem _ hp))
      cases e with
      | press p =>
        refine click_ok g p 0 le_rfl (fun _ => ?_) (by norm_num) hg
        rcases h p (by simp) with h | h
        · exact .inl h
        · exact .inr (not_lt.mpr h)
      | resize r c => exact fresh_ok r c 0 le_rfl
  exact main _ (fresh_ok r c 0 le_rfl)

/-- C34 fails in the margin below the grid: one click with `y` in `(-1, 0]` makes the count -1. -/
theorem negative_chips (nrows ncols : ℕ) (h : 0 < ncols) (y : ℝ) (h1 : -1 < y) (h2 : y ≤ 0) :
    (runEvents (fresh nrows ncols) [.press ⟨true, 1 / 2, y⟩]).weights 0 = -1 := by
  have := (click_effect (fresh nrows ncols) ⟨true, 1 / 2, y⟩ 0 0 le_rfl
    ⟨rfl, by norm_num, by norm_num, h, by simpa using h1, by simpa using h2, by simp⟩).1
  simpa [runEvents, step, fresh] using this

/-! ## C35 -/

theorem divAll_ok (t : ℝ) (ht : t ≠ 0) (l : List ℝ) : divAll t l = .ok (l.map (· / t)) := by
  induction l with
  | nil => rfl
  | cons a l ih => simp [divAll, pyDiv, ht, ih]

/-- the columns that hold chips -/
def Grid.used (g : Grid) : List (ℕ × ℤ) := g.counts.filter fun kv => kv.2 ≠ 0

theorem sum_filter_ne_zero (l : List (ℕ × ℤ)) :
    ((l.filter fun kv => kv.2 ≠ 0).map fun kv => (kv.2 : ℝ)).sum = (((l.map Prod.snd).sum : ℤ) : ℝ) := by
  induction l with
  | nil => simp
  | cons a l ih =>
    by_cases h : a.2 = 0
    · simp [h]; simpa using ih
    · simp [h]; simpa using ih

/-- C35: with at least two columns, non-negative counts and some chip, the histogram handed to the fit
has positive probabilities that sum to one, proportional to the chips; mean and standard deviation are
those of the histogram; column `k` is placed at `x_min + (k + 1/2) * step`.  Missing: the position is
not the value labelled under the column (see `position_is_not_label`). -/
theorem roulette_histogram_partial (xMin xMax : ℝ) (g : Grid) (hc : 2 ≤ g.ncols)
    (h0 : ∀ c < g.ncols, 0 ≤ g.weights c) (hs : ∃ c < g.ncols, g.weights c ≠ 0) :
    Gives (weightsToPdf xMin xMax g) fun h =>
      h.columns = (Grid.used g).length ∧ 1 ≤ h.columns ∧
      h.xs = (Grid.used g).map (fun kv => xMin + ((kv.1 : ℝ) + 1 / 2) * ((xMax - xMin) / (g.ncols - 1))) ∧
      h.probs = (Grid.used g).map (fun kv => (kv.2 : ℝ) / ((Grid.used g).map fun kv => (kv.2 : ℝ)).sum) ∧
      (∀ p ∈ h.probs, 0 < p) ∧ h.probs.sum = 1 ∧
      h.mean = ((h.xs.zip h.probs).map fun vp => vp.2 * vp.1).sum ∧
      ∃ s, h.std = some s ∧ 0 ≤ s ∧
        s ^ 2 = ((h.xs.zip h.probs).map fun vp => vp.2 * (vp.1 - h.mean) ^ 2).sum := by
  have hn : ((g.ncols : ℝ) - 1) ≠ 0 := by
    have : (2 : ℝ) ≤ g.ncols := by exact_mod_cast hc
    linarith
  have hpos : ∀ kv ∈ Grid.used g, (0 : ℝ) < kv.2 := by
    intro kv hkv
    obtain ⟨h1, h2⟩ := List.mem_filter.mp hkv
    obtain ⟨k, hk, rfl⟩ := List.mem_map.mp h1
    have := h0 k (List.mem_range.mp hk)
    simp only [ne_eq, decide_not, Bool.not_eq_true', decide_eq_false_iff_not] at h2
    have h3 : 0 < g.weights k := lt_of_le_of_ne this (Ne.symm h2)
    exact_mod_cast h3
  obtain ⟨c, hcl, hcn⟩ := hs
  have hmem : (c, g.weights c) ∈ Grid.used g := by
    apply List.mem_filter.mpr
    refine ⟨List.mem_map.mpr ⟨c, List.mem_range.mpr hcl, rfl⟩, by simpa using hcn⟩
  have hne : Grid.used g ≠ [] := List.ne_nil_of_mem hmem
  have htot : 0 < ((Grid.used g).map fun kv => (kv.2 : ℝ)).sum := by
    apply List.sum_pos
    · intro x hx
      obtain ⟨kv, hkv, rfl⟩ := List.mem_map.mp hx
      exact hpos kv hkv
    · simpa using hne
  have hsum := sum_filter_ne_zero g.counts
  change ((Grid.used g).map fun kv => (kv.2 : ℝ)).sum = _ at hsum
  set total := ((Grid.used g).map fun kv => (kv.2 : ℝ)).sum with htotal
  set st := (xMax - xMin) / ((g.ncols : ℝ) - 1) with hst
  set xs := (Grid.used g).map (fun kv => ((kv.1 : ℝ) + 1 / 2) * st + xMin) with hxs
  set ps := ((Grid.used g).map fun kv => (kv.2 : ℝ)).map (· / total) with hps
  have hpp : ∀ p ∈ ps, 0 < p := by
    intro p hp
    obtain ⟨q, hq, rfl⟩ := List.mem_map.mp hp
    obtain ⟨kv, hkv, rfl⟩ := List.mem_map.mp hq
    exact div_pos (hpos kv hkv) htot
  have hvar : 0 ≤ ((xs.zip ps).map fun vp => vp.2 *
      (vp.1 - ((xs.zip ps).map fun vp => vp.2 * vp.1).sum) ^ 2).sum := by
    apply List.sum_nonneg
    intro v hv
    obtain ⟨vp, hvp, rfl⟩ := List.mem_map.mp hv
    have := hpp vp.2 (List.of_mem_zip hvp).2
    positivity
  have heq : weightsToPdf xMin xMax g = .ok ⟨xs, ps, ((xs.zip ps).map fun vp => vp.2 * vp.1).sum,
      some (Real.sqrt ((xs.zip ps).map fun vp => vp.2 *
        (vp.1 - ((xs.zip ps).map fun vp => vp.2 * vp.1).sum) ^ 2).sum), xs.length⟩ := by
    unfold weightsToPdf
    simp only [pyDiv, if_neg hn, Except.ok_bind']
    rw [← hsum, divAll_ok _ htot.ne']
    simp only [Except.ok_bind', Except.pure_eq]
    change Except.ok (Histogram.mk xs ps _ (powHalf ((xs.zip ps).map fun vp => vp.2 *
        (vp.1 - ((xs.zip ps).map fun vp => vp.2 * vp.1).sum) ^ 2).sum) _) = _
    rw [powHalf, if_neg (not_lt.mpr hvar)]
    rfl
  refine ⟨_, heq, by simp [hxs], ?_, ?_, ?_, hpp, ?_, rfl, _, rfl, Real.sqrt_nonneg _, Real.sq_sqrt hvar⟩
  · dsimp only
    rw [hxs, List.length_map]
    exact List.length_pos_iff.mpr hne
  · apply List.map_congr_left
    intro kv _
    ring
  · rw [hps, List.map_map]; rfl
  · rw [hps]
    simp only [div_eq_mul_inv]
    rw [List.sum_map_mul_right, List.map_id']
    exact mul_inv_cancel₀ htot.ne'

/-- three columns, chips 1, 0, 2 -/
example : ∃ g : Grid, 2 ≤ g.ncols ∧ (∀ c < g.ncols, 0 ≤ g.weights c) ∧ ∃ c < g.ncols, g.weights c ≠ 0 :=
  ⟨⟨5, 3, fun c => if c = 1 then 0 else (c : ℤ) + 1, fun _ _ => false⟩, by norm_num,
    by intro c _; dsimp only; split <;> positivity, 0, by norm_num, by simp⟩

/-- the value written under axis position `p` by the tick labels, which are linear in `p` -/
noncomputable def labelAt (xMin xMax : ℝ) (ncols : ℕ) (p : ℝ) : ℝ :=
  xMin + (p - 1 / 2) * ((xMax - xMin) / (ncols - 1))

/-- every tick label is the value of that linear scale at the tick; the first and last column centres
are labelled `x_min` and `x_max` -/
theorem ticks_on_scale (xMin xMax : ℝ) (ncols : ℕ) (h : 2 ≤ ncols) :
    (∀ t ∈ ticks xMin xMax ncols, t.2 = labelAt xMin xMax ncols t.1) ∧
    labelAt xMin xMax ncols (1 / 2) = xMin ∧ labelAt xMin xMax ncols ((ncols : ℝ) - 1 / 2) = xMax := by
  have hn : ((ncols : ℝ) - 1) ≠ 0 := by
    have : (2 : ℝ) ≤ ncols := by exact_mod_cast h
    linarith
  refine ⟨?_, by simp [labelAt], by unfold labelAt; field_simp; ring⟩
  intro t ht
  unfold ticks at ht
  dsimp only at ht
  generalize hnum : (if ncols < 11 then ncols else 11) = num at ht
  have hnum2 : 2 ≤ num := by rw [← hnum]; split <;> omega
  have hnn : ((num : ℝ) - 1) ≠ 0 := by
    have : (2 : ℝ) ≤ num := by exact_mod_cast hnum2
    linarith
  unfold linspace at ht
  rw [List.map_map, List.zip_map'] at ht
  obtain ⟨i, hi, rfl⟩ := List.mem_map.mp ht
  simp only [Function.comp, labelAt]
  rw [if_neg (by omega), if_neg (by omega)]
  field_simp
  ring

/-- C35 fails: the value used for column `k` is half a step above the value labelled under its centre,
and the last column is used at a value above `x_max`. -/
theorem position_is_not_label (xMin xMax : ℝ) (ncols k : ℕ) (h : 2 ≤ ncols) (hx : xMin < xMax) :
    let used := xMin + ((k : ℝ) + 1 / 2) * ((xMax - xMin) / (ncols - 1))
    labelAt xMin xMax ncols ((k : ℝ) + 1 / 2) < used ∧
    used - labelAt xMin xMax ncols ((k : ℝ) + 1 / 2) = (xMax - xMin) / (ncols - 1) / 2 ∧
    (k + 1 = ncols → xMax < used) ∧ (k + 1 < ncols → xMin ≤ used ∧ used ≤ xMax) := by
  have hn : (0 : ℝ) < (ncols : ℝ) - 1 := by
    have : (2 : ℝ) ≤ ncols := by exact_mod_cast h
    linarith
  have hs : 0 < (xMax - xMin) / ((ncols : ℝ) - 1) := div_pos (by linarith) hn
  have hmul : ((ncols : ℝ) - 1) * ((xMax - xMin) / ((ncols : ℝ) - 1)) = xMax - xMin := by field_simp
  dsimp only
  set s := (xMax - xMin) / ((ncols : ℝ) - 1) with hsdef
  have hl : labelAt xMin xMax ncols ((k : ℝ) + 1 / 2) = xMin + k * s := by
    unfold labelAt; rw [← hsdef]; ring
  rw [hl]
  refine ⟨by linarith, by ring, ?_, ?_⟩
  · intro hk
    have : (k : ℝ) + 1 = ncols := by exact_mod_cast hk
    have hk' : (k : ℝ) = ncols - 1 := by linarith
    rw [hk', add_mul, hmul]
    linarith
  · intro hk
    have h1 : (k : ℝ) + 2 ≤ ncols := by exact_mod_cast hk
    constructor
    · have : (0 : ℝ) ≤ (k + 1 / 2) * s := by positivity
      linarith
    · have : ((k : ℝ) + 1 / 2) * s ≤ ((ncols : ℝ) - 1) * s :=
        mul_le_mul_of_nonneg_right (by linarith) hs.le
      rw [hmul] at this
      linarith

/-- an empty grid yields an empty histogram (and no fit); a single column is a `ZeroDivisionError` -/
theorem roulette_degenerate (xMin xMax : ℝ) (g : Grid) :
    (g.ncols = 1 → weightsToPdf xMin xMax g = .error .zeroDivision) ∧
    (2 ≤ g.ncols → (∀ c < g.ncols, g.weights c = 0) →
      weightsToPdf xMin xMax g = .ok ⟨[], [], 0, some 0, 0⟩) := by
  constructor
  · intro h
    simp [weightsToPdf, pyDiv, h]
  · intro h h0
    have hn : ((g.ncols : ℝ) - 1) ≠ 0 := by
      have : (2 : ℝ) ≤ g.ncols := by exact_mod_cast h
      linarith
    have hu : (g.counts.filter fun kv => kv.2 ≠ 0) = [] := by
      rw [List.filter_eq_nil_iff]
      intro kv hkv
      obtain ⟨k, hk, rfl⟩ := List.mem_map.mp hkv
      simp [h0 k (List.mem_range.mp hk)]
    unfold weightsToPdf
    simp only [pyDiv, if_neg hn, Except.ok_bind', hu, List.map_nil, divAll, List.zip_nil_left,
      List.sum_nil, powHalf, lt_self_iff_false, if_false, Real.sqrt_zero, List.length_nil, Except.pure_eq]

/-- with the negative counts of `negative_chips` the total can vanish: leaving the figure raises -/
theorem roulette_zero_total : ∃ g : Grid, GridOk g (-1) ∧
    weightsToPdf 0 1 g = .error .zeroDivision := by
  refine ⟨⟨3, 2, fun c => if c = 0 then -1 else 1, fun row c => decide (row = 0 ∧ c = 1)⟩,
    ⟨?_, ?_, ?_⟩, ?_⟩
  · intro c _; dsimp only; split <;> norm_num
  · intro c _; dsimp only; split <;> norm_num
  · intro c hc row hrow
    dsimp only at hc hrow ⊢
    have : c = 0 ∨ c = 1 := by omega
    rcases this with rfl | rfl
    · simp
    · simp
  · have : ((2 : ℝ) - 1) ≠ 0 := by norm_num
    simp [weightsToPdf, pyDiv, Grid.counts, List.range_succ, divAll, this]

end Verif.Props
