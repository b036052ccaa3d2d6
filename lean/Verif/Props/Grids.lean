import Verif.Props.Intervals
import Mathlib.Tactic.Qify
import Mathlib.Analysis.SpecificLimits.Basic

set_option linter.unusedSimpArgs false

/-!
# C22 discrete highest-density intervals, C23 evaluation grids, C24 quantile search, C25 modes
-/

namespace Verif.Props
open Verif MeasureTheory Verif.Spec Verif.Modifier Verif.Interval Filter Topology

/-! ### C22 -/

theorem massIn_perm (f : ℤ → ℝ) {g g' : List ℤ} (h : g.Perm g') (a b : ℤ) :
    massIn f g a b = massIn f g' a b :=
  ((h.filter _).map f).sum_eq

/-- C22: the interval has grid points as ends, carries the requested mass, and every point left
out is at most as likely as either end. -/
theorem hdi_covers (f : ℤ → ℝ) (grid : List ℤ) (sorted : List (ℤ × ℝ)) (mass : ℝ)
    (hg : grid ≠ []) (hf : ∀ x ∈ grid, 0 ≤ f x) (hs : IsDescending f grid sorted)
    (hm : mass ≤ (grid.map f).sum) :
    ∃ lo hi : ℤ, discreteHdi mass sorted = .ok (lo, hi) ∧ lo ∈ grid ∧ hi ∈ grid ∧ lo ≤ hi ∧
      mass ≤ massIn f grid lo hi ∧
      ∀ x ∈ grid, ¬ (lo ≤ x ∧ x ≤ hi) → f x ≤ f lo ∧ f x ≤ f hi := by
  obtain ⟨S, rest, lo, hi, h1, h2, h3, h4, h5, -, h7, h8, h9⟩ := discreteHdi_spec mass hs hg
  refine ⟨lo, hi, h1, h2.mem_iff.mp (by simp [h7]), h2.mem_iff.mp (by simp [h8]), (h9 hi h8).1,
    ?_, ?_⟩
  · have hS : mass ≤ (S.map f).sum := by
      by_cases hr : rest = []
      · subst hr
        rw [List.append_nil] at h2
        rw [(h2.map f).sum_eq]
        exact hm
      · exact h5 hr
    refine hS.trans ?_
    rw [← massIn_perm f h2]
    unfold massIn
    rw [List.filter_append, List.filter_eq_self.mpr (by intro x hx; simpa using h9 x hx),
      List.map_append, List.sum_append]
    have : 0 ≤ ((rest.filter fun x => decide (lo ≤ x ∧ x ≤ hi)).map f).sum := by
      apply List.sum_nonneg
      intro y hy
      obtain ⟨x, hx, rfl⟩ := List.mem_map.mp hy
      exact hf x (h2.mem_iff.mp (List.mem_append_right _ (List.mem_of_mem_filter hx)))
    linarith
  · intro x hx hout
    have hx' := h2.mem_iff.mpr hx
    rcases List.mem_append.mp hx' with h | h
    · exact absurd (h9 x h) hout
    · rw [List.map_append, List.pairwise_append] at h3
      exact ⟨h3.2.2 _ (List.mem_map_of_mem h7) _ (List.mem_map_of_mem h),
        h3.2.2 _ (List.mem_map_of_mem h8) _ (List.mem_map_of_mem h)⟩

/-- C22: when the grid does not carry the requested mass the whole grid is returned. -/
theorem hdi_unreachable (f : ℤ → ℝ) (grid : List ℤ) (sorted : List (ℤ × ℝ)) (mass : ℝ)
    (hg : grid ≠ []) (hf : ∀ x ∈ grid, 0 ≤ f x) (hs : IsDescending f grid sorted)
    (hm : (grid.map f).sum < mass) :
    ∃ lo hi : ℤ, discreteHdi mass sorted = .ok (lo, hi) ∧ lo ∈ grid ∧ hi ∈ grid ∧
      ∀ x ∈ grid, lo ≤ x ∧ x ≤ hi := by
  obtain ⟨S, rest, lo, hi, h1, h2, h3, h4, h5, -, h7, h8, h9⟩ := discreteHdi_spec mass hs hg
  have hr : rest = [] := by
    by_contra hr
    have a := h5 hr
    have b : (S.map f).sum ≤ (grid.map f).sum := by
      rw [← (h2.map f).sum_eq, List.map_append, List.sum_append]
      have : 0 ≤ (rest.map f).sum := by
        apply List.sum_nonneg
        intro y hy
        obtain ⟨x, hx, rfl⟩ := List.mem_map.mp hy
        exact hf x (h2.mem_iff.mp (List.mem_append_right _ hx))
      linarith
    linarith
  subst hr
  rw [List.append_nil] at h2
  exact ⟨lo, hi, h1, h2.mem_iff.mp h7, h2.mem_iff.mp h8, fun x hx => h9 x (h2.mem_iff.mpr hx)⟩

/-- C22: for a unimodal mass function without ties no interval of grid points carrying the requested
mass has fewer points.  Missing from the English claim: ties, see `hdi_ties`. -/
theorem hdi_shortest_partial (f : ℤ → ℝ) (grid : List ℤ) (sorted : List (ℤ × ℝ)) (mass : ℝ)
    (hg : grid ≠ []) (hnd : grid.Nodup) (hf : ∀ x ∈ grid, 0 ≤ f x)
    (hs : IsDescending f grid sorted)
    (hu : UnimodalOn f grid) (hinj : ∀ x ∈ grid, ∀ y ∈ grid, f x = f y → x = y) (hpos : 0 < mass) :
    ∃ lo hi : ℤ, discreteHdi mass sorted = .ok (lo, hi) ∧
      ∀ a b, mass ≤ massIn f grid a b → countIn grid lo hi ≤ countIn grid a b := by
  obtain ⟨S, rest, lo, hi, h1, h2, h3, h4, h5, h6, h7, h8, h9⟩ := discreteHdi_spec mass hs hg
  refine ⟨lo, hi, h1, fun a b hab => ?_⟩
  have hlo : lo ∈ grid := h2.mem_iff.mp (by simp [h7])
  have hhi : hi ∈ grid := h2.mem_iff.mp (by simp [h8])
  have hnd' : (S ++ rest).Nodup := h2.symm.nodup hnd
  have hdis := (List.nodup_append.mp hnd').2.2
  -- the interval contains only selected points
  have hin : ∀ x ∈ grid, lo ≤ x → x ≤ hi → x ∈ S := by
    intro x hx hlx hxh
    rcases List.mem_append.mp (h2.mem_iff.mpr hx) with h | h
    · exact h
    · exfalso
      rw [List.map_append, List.pairwise_append] at h3
      have e1 := h3.2.2 _ (List.mem_map_of_mem h7) _ (List.mem_map_of_mem h)
      have e2 := h3.2.2 _ (List.mem_map_of_mem h8) _ (List.mem_map_of_mem h)
      have n1 : lo ≠ x := hdis _ h7 _ h
      have n2 : hi ≠ x := hdis _ h8 _ h
      have hm := hu lo hlo x hx hi hhi (lt_of_le_of_ne hlx n1) (lt_of_le_of_ne hxh n2.symm)
      rcases min_choice (f lo) (f hi) with hc | hc
      · rw [hc] at hm; exact n1 (hinj _ hlo _ hx (le_antisymm hm e1))
      · rw [hc] at hm; exact n2 (hinj _ hhi _ hx (le_antisymm hm e2))
  have c1 : countIn grid lo hi ≤ S.length := by
    unfold countIn
    apply List.Subperm.length_le
    apply List.subperm_of_subset (hnd.filter _)
    intro x hx
    simp only [List.mem_filter, decide_eq_true_eq] at hx
    exact hin x hx.1 hx.2.1 hx.2.2
  refine c1.trans ?_
  -- any selection carrying the mass has at least as many points
  by_contra hlt
  push Not at hlt
  set T := (S ++ rest).filter fun x => decide (a ≤ x ∧ x ≤ b) with hT
  have hTl : T.length = countIn grid a b := (h2.filter _).length_eq
  have hTs : (T.map f).sum = massIn f grid a b := ((h2.filter _).map f).sum_eq
  have hsub : (T.map f).Sublist ((S ++ rest).map f) := (List.filter_sublist).map f
  have b1 := sublist_sum_le hsub h3
  rw [List.length_map, hTl, hTs] at b1
  have hnn : ∀ x ∈ (S ++ rest).map f, 0 ≤ x := by
    intro y hy
    obtain ⟨x, hx, rfl⟩ := List.mem_map.mp hy
    exact hf x (h2.mem_iff.mp hx)
  have b2 := take_sum_mono hnn (show countIn grid a b ≤ S.length - 1 by omega)
  have b3 : ((S ++ rest).map f).take (S.length - 1) = S.dropLast.map f := by
    rw [← List.map_take, List.take_append_of_le_length (by omega), List.dropLast_eq_take]
  rw [b3] at b2
  rcases h6 with h6 | h6
  · linarith
  · have : countIn grid a b = 0 := by omega
    have hT0 : T = [] := List.length_eq_zero_iff.mp (hTl.trans this)
    rw [hT0] at hTs
    simp at hTs
    linarith

/-- C22 fails with ties: a legal sort order of a uniform mass function on {0, 1, 2} makes the search
return [0, 2] for mass 1/2, though [0, 1] already carries 2/3. -/
theorem hdi_ties :
    ∃ sorted : List (ℤ × ℝ), IsDescending (fun _ => (1 / 3 : ℝ)) [0, 1, 2] sorted ∧
      UnimodalOn (fun _ => (1 / 3 : ℝ)) [0, 1, 2] ∧
      discreteHdi (1 / 2) sorted = .ok (0, 2) ∧
      (1 / 2 : ℝ) ≤ massIn (fun _ => (1 / 3 : ℝ)) [0, 1, 2] 0 1 ∧
      countIn [0, 1, 2] 0 1 < countIn [0, 1, 2] 0 2 := by
  refine ⟨[(0, 1 / 3), (2, 1 / 3), (1, 1 / 3)], ⟨?_, ?_⟩, ?_, ?_, ?_, ?_⟩
  · exact List.Perm.cons _ (List.Perm.swap _ _ _)
  · simp
  · intro x _ y _ z _ _ _; simp
  · have : takeMass (1 / 2) 0 [(0, 1 / 3), (2, 1 / 3), (1, 1 / 3)] = [0, 2] := by
      norm_num [takeMass]
    simp only [discreteHdi, this]; rfl
  · norm_num [massIn, List.filter]
  · decide

/-- C22: `hdi` uses this search for grids of fewer than 199 points, whatever the sort does with
ties. -/
theorem findHdi_short (f : ℤ → ℝ) (grid : List ℤ) (argsort : List (ℤ × ℝ) → List (ℤ × ℝ))
    (approx : Except Err (ℤ × ℤ)) (mass : ℝ) (hl : grid.length < 199)
    (hsort : ∀ l, (argsort l).Perm l ∧ (argsort l).Pairwise fun a b => a.2 ≥ b.2)
    (hg : grid ≠ []) (hf : ∀ x ∈ grid, 0 ≤ f x) (hm : mass ≤ (grid.map f).sum) :
    ∃ lo hi : ℤ, findHdiDiscrete f grid argsort approx mass = .ok (lo, hi) ∧
      lo ∈ grid ∧ hi ∈ grid ∧ lo ≤ hi ∧ mass ≤ massIn f grid lo hi := by
  obtain ⟨lo, hi, h1, h2, h3, h4, h5, -⟩ := hdi_covers f grid (argsort (withMass f grid)) mass hg hf
    ⟨(hsort _).1, (hsort _).2⟩ hm
  exact ⟨lo, hi, by rw [findHdiDiscrete, if_pos hl, h1], h2, h3, h4, h5⟩

/-- hypotheses of `hdi_covers` and `hdi_shortest_partial` are satisfiable -/
example : ∃ lo hi : ℤ, discreteHdi (1 / 2) [((1 : ℤ), (1 / 2 : ℝ)), (0, 1 / 3), (2, 1 / 6)] = .ok (lo, hi) ∧
    ∀ a b, (1 / 2 : ℝ) ≤ massIn (fun k => if k = 1 then 1 / 2 else if k = 0 then 1 / 3 else 1 / 6)
      [0, 1, 2] a b → countIn [0, 1, 2] lo hi ≤ countIn [0, 1, 2] a b := by
  apply hdi_shortest_partial
  · simp
  · decide
  · intro x _; split_ifs <;> norm_num
  · refine ⟨?_, by norm_num⟩
    norm_num
    exact List.Perm.swap _ _ _
  · intro x hx y hy z hz hxy hyz
    simp only [List.mem_cons, List.not_mem_nil, or_false] at hx hy hz
    have : y = 1 := by omega
    subst this
    simp only [if_true]
    refine (min_le_left _ _).trans ?_
    split_ifs <;> norm_num
  · intro x hx y hy h
    simp only [List.mem_cons, List.not_mem_nil, or_false] at hx hy
    rcases hx with rfl | rfl | rfl <;> rcases hy with rfl | rfl | rfl <;>
      first | rfl | (exfalso; norm_num at h)
  · norm_num

/-! ### C23 -/

/-- C23: when the range is at most `n_points` the grid is all integers between the end points, in
increasing order. -/
theorem xvals_small (lower upper : ℤ) (n : ℕ) (hr : upper - lower ≤ n) :
    (discreteXvals lower upper n).Pairwise (· < ·) ∧
      ∀ x, x ∈ discreteXvals lower upper n ↔ lower ≤ x ∧ x ≤ upper := by
  unfold discreteXvals
  dsimp only
  rw [if_pos hr]
  constructor
  · rw [List.pairwise_map]
    exact List.pairwise_lt_range.imp (by intro a b h; omega)
  · intro x
    simp only [List.mem_map, List.mem_range]
    constructor
    · rintro ⟨i, hi, rfl⟩
      omega
    · intro h
      exact ⟨(x - lower).toNat, by omega, by omega⟩

theorem linspace_facts (a b : ℤ) (n : ℕ) (hn : 2 ≤ n) (hab : (n : ℤ) + 1 < b - a) :
    (linspaceInt a b n).Pairwise (· < ·) ∧ (linspaceInt a b n).head? = some a ∧
      (linspaceInt a b n).getLast? = some b ∧ ∀ x ∈ (linspaceInt a b n).dropLast, a ≤ x ∧ x < b := by
  have hn1 : (0 : ℚ) < ((n - 1 : ℕ) : ℚ) := by exact_mod_cast (by omega : 0 < n - 1)
  have hcast : ((n - 1 : ℕ) : ℚ) = n - 1 := by push_cast [Nat.cast_sub (by omega : 1 ≤ n)]; ring
  set s : ℚ := ((b - a : ℤ) : ℚ) / (n - 1 : ℕ) with hs
  have hs1 : 1 < s := by
    rw [hs, one_lt_div hn1, hcast]
    have : (n : ℚ) + 1 < ((b - a : ℤ) : ℚ) := by exact_mod_cast hab
    linarith
  have hlast : (n - 1 : ℕ) * s = ((b - a : ℤ) : ℚ) := by rw [hs]; field_simp
  refine ⟨?_, ?_, ?_, ?_⟩
  · unfold linspaceInt
    rw [List.pairwise_map]
    refine List.pairwise_lt_range.imp ?_
    intro i j hij
    rw [← hs]
    have h1 : ((i : ℚ)) + 1 ≤ j := by exact_mod_cast hij
    have h2 : (a : ℚ) + i * s + 1 ≤ a + j * s := by nlinarith
    have := Int.floor_le_floor h2
    rw [Int.floor_add_one] at this
    omega
  · unfold linspaceInt
    rw [List.head?_map, List.head?_range]
    simp [show n ≠ 0 by omega]
  · unfold linspaceInt
    rw [List.getLast?_map, List.getLast?_range, if_neg (by omega)]
    simp only [Option.map_some]
    rw [← hs, hlast]
    simp
  · intro x hx
    unfold linspaceInt at hx
    rw [← List.map_dropLast, List.dropLast_eq_take, List.take_range, List.length_range] at hx
    obtain ⟨i, hi, rfl⟩ := List.mem_map.mp hx
    rw [← hs]
    have hi' : i < n - 1 := by have := List.mem_range.mp hi; omega
    constructor
    · rw [Int.le_floor]
      have : 0 ≤ (i : ℚ) * s := by positivity
      linarith
    · rw [Int.floor_lt]
      have h1 : (i : ℚ) < ((n - 1 : ℕ) : ℚ) := by exact_mod_cast hi'
      have h2 : (i : ℚ) * s < (n - 1 : ℕ) * s := by nlinarith
      rw [hlast] at h2
      push_cast at h2
      linarith

/-- C23: for longer ranges the grid has exactly `n_points` increasing integers starting at the lower
end point, all but the last within the end points.  Missing from the English claim: the last value
is one beyond the upper end point, see `xvals_outside`. -/
theorem xvals_large_partial (lower upper : ℤ) (n : ℕ) (hn : 2 ≤ n) (hr : (n : ℤ) < upper - lower)
    (hcap : upper - lower ≤ int64Max) :
    (discreteXvals lower upper n).length = n ∧ (discreteXvals lower upper n).Pairwise (· < ·) ∧
      (discreteXvals lower upper n).head? = some lower ∧
      (discreteXvals lower upper n).getLast? = some (upper + 1) ∧
      ∀ x ∈ (discreteXvals lower upper n).dropLast, lower ≤ x ∧ x ≤ upper := by
  have e : discreteXvals lower upper n = linspaceInt lower (upper + 1) n := by
    unfold discreteXvals
    dsimp only
    rw [if_neg (by omega), if_neg (by omega)]
  rw [e]
  obtain ⟨h1, h2, h3, h4⟩ := linspace_facts lower (upper + 1) n hn (by omega)
  exact ⟨linspaceInt_length _ _ _, h1, h2, h3, fun x hx => ⟨(h4 x hx).1, by have := (h4 x hx).2; omega⟩⟩

/-- C23: ranges beyond 64-bit integers are cut. -/
theorem xvals_huge (lower upper : ℤ) (n : ℕ) (hn : 2 ≤ n) (hn' : (n : ℤ) < int64Max)
    (hcap : int64Max < upper - lower) :
    (discreteXvals lower upper n).length = n ∧ (discreteXvals lower upper n).Pairwise (· < ·) ∧
      (discreteXvals lower upper n).head? = some lower ∧
      ∀ x ∈ discreteXvals lower upper n, lower ≤ x ∧ x ≤ upper := by
  have e : discreteXvals lower upper n = linspaceInt lower (lower + int64Max + 1) n := by
    unfold discreteXvals
    dsimp only
    rw [if_neg (by omega), if_pos (by omega)]
  rw [e]
  obtain ⟨h1, h2, h3, h4⟩ := linspace_facts lower (lower + int64Max + 1) n hn (by omega)
  refine ⟨linspaceInt_length _ _ _, h1, h2, fun x hx => ?_⟩
  have hne : linspaceInt lower (lower + int64Max + 1) n ≠ [] := by
    intro h; rw [h] at h2; simp at h2
  rw [← List.dropLast_append_getLast hne, List.mem_append] at hx
  rcases hx with hx | hx
  · have := h4 x hx; omega
  · rw [List.getLast?_eq_getLast_of_ne_nil hne] at h3
    simp at hx
    rw [hx, Option.some.inj h3]
    have : (0 : ℤ) < int64Max := by decide
    omega

/-- C23 fails: whenever the range exceeds `n_points` the grid contains an integer beyond the upper end
point (for a bounded distribution, outside the support). -/
theorem xvals_outside (lower upper : ℤ) (n : ℕ) (hn : 2 ≤ n) (hr : (n : ℤ) < upper - lower)
    (hcap : upper - lower ≤ int64Max) : ∃ x ∈ discreteXvals lower upper n, upper < x := by
  obtain ⟨-, -, -, h, -⟩ := xvals_large_partial lower upper n hn hr hcap
  exact ⟨upper + 1, List.mem_of_getLast? h, by omega⟩

/-- C23 fails: when the range equals `n_points` the grid has `n_points + 1` values. -/
theorem xvals_too_many (lower : ℤ) (n : ℕ) : (discreteXvals lower (lower + n) n).length = n + 1 := by
  unfold discreteXvals
  dsimp only
  rw [if_pos (by omega), List.length_map, List.length_range]
  omega

/-- C23: never more than `n_points + 1` values. -/
theorem xvals_count (lower upper : ℤ) (n : ℕ) : (discreteXvals lower upper n).length ≤ n + 1 := by
  unfold discreteXvals
  dsimp only
  split_ifs with h
  · rw [List.length_map, List.length_range]; omega
  · rw [linspaceInt_length]; omega
  · rw [linspaceInt_length]; omega

example : (discreteXvals 0 10 20).Pairwise (· < ·) := (xvals_small 0 10 20 (by norm_num)).1
example : ∃ x ∈ discreteXvals 0 1000 200, 1000 < x :=
  xvals_outside 0 1000 200 (by norm_num) (by norm_num) (by decide)

/-- C23: the two supports: a finite end is itself, an infinite one (and both when restricted) is the
quantile at 0.0001 or 0.9999, an integer; the grid is built between them. -/
theorem xvals_endpoints (b : Base) (hd : b.discrete = true) (hlo : Whole b.lo) (hhi : Whole b.hi)
    (n : ℕ) : ∃ lf uf lr ur : ℤ,
      xvalsDiscrete b .full (some n) = .ok (discreteXvals lf uf n) ∧
      xvalsDiscrete b .restricted (some n) = .ok (discreteXvals lr ur n) ∧
      IsQuantile b.law 0.0001 ((lr : ℝ) : EReal) ∧ IsQuantile b.law 0.9999 ((ur : ℝ) : EReal) ∧
      (((lf : ℝ) : EReal) = b.lo ∨ (b.lo = ⊤ ∨ b.lo = ⊥) ∧ lf = lr) ∧
      (((uf : ℝ) : EReal) = b.hi ∨ (b.hi = ⊤ ∨ b.hi = ⊥) ∧ uf = ur) := by
  obtain ⟨l, hl⟩ := ppf_real b (q := 0.0001) (by norm_num) (by norm_num)
  obtain ⟨u, hu⟩ := ppf_real b (q := 0.9999) (by norm_num) (by norm_num)
  obtain ⟨lr, rfl⟩ := ppf_integer b hd (by norm_num) (by norm_num) hl
  obtain ⟨ur, rfl⟩ := ppf_integer b hd (by norm_num) (by norm_num) hu
  have ql : IsQuantile b.law 0.0001 ((lr : ℝ) : EReal) := by
    intro x; rw [← hl]; exact b.ppf_inverse _ (by norm_num) (by norm_num) x
  have qu : IsQuantile b.law 0.9999 ((ur : ℝ) : EReal) := by
    intro x; rw [← hu]; exact b.ppf_inverse _ (by norm_num) (by norm_num) x
  have h1 : ∃ lf : ℤ, (if b.lo = ⊤ ∨ b.lo = ⊥ then b.ppf 0.0001 else b.lo) = ((lf : ℝ) : EReal) ∧
      (((lf : ℝ) : EReal) = b.lo ∨ (b.lo = ⊤ ∨ b.lo = ⊥) ∧ lf = lr) := by
    by_cases h : b.lo = ⊤ ∨ b.lo = ⊥
    · exact ⟨lr, by rw [if_pos h, hl], .inr ⟨h, rfl⟩⟩
    · obtain ⟨k, hk⟩ : ∃ k : ℤ, b.lo = ((k : ℝ) : EReal) := by
        rcases hlo with h' | h' | h'
        · exact absurd (.inl h') h
        · exact absurd (.inr h') h
        · exact h'
      exact ⟨k, by rw [if_neg h, hk], .inl hk.symm⟩
  have h2 : ∃ uf : ℤ, (if b.hi = ⊤ ∨ b.hi = ⊥ then b.ppf 0.9999 else b.hi) = ((uf : ℝ) : EReal) ∧
      (((uf : ℝ) : EReal) = b.hi ∨ (b.hi = ⊤ ∨ b.hi = ⊥) ∧ uf = ur) := by
    by_cases h : b.hi = ⊤ ∨ b.hi = ⊥
    · exact ⟨ur, by rw [if_pos h, hu], .inr ⟨h, rfl⟩⟩
    · obtain ⟨k, hk⟩ : ∃ k : ℤ, b.hi = ((k : ℝ) : EReal) := by
        rcases hhi with h' | h' | h'
        · exact absurd (.inl h') h
        · exact absurd (.inr h') h
        · exact h'
      exact ⟨k, by rw [if_neg h, hk], .inl hk.symm⟩
  obtain ⟨lf, a1, a2⟩ := h1
  obtain ⟨uf, c1, c2⟩ := h2
  refine ⟨lf, uf, lr, ur, ?_, ?_, ql, qu, a2, c2⟩
  · unfold xvalsDiscrete finiteEndpoints
    simp only [Except.ok_bind', a1, c1, pyInt_int, Option.getD_some]
    rfl
  · unfold xvalsDiscrete finiteEndpoints
    simp only [Except.ok_bind', hl, hu, pyInt_int, Option.getD_some]
    rfl

/-! ### C25 -/

theorem argmaxFrom_spec (f : ℤ → ℝ) (l : List ℤ) (a : ℤ) :
    ∃ pre post, a :: l = pre ++ argmaxFrom f a l :: post ∧
      (∀ x ∈ pre, f x < f (argmaxFrom f a l)) ∧ ∀ x ∈ a :: l, f x ≤ f (argmaxFrom f a l) := by
  induction l generalizing a with
  | nil => exact ⟨[], [], by simp [argmaxFrom], by simp, by simp [argmaxFrom]⟩
  | cons b l ih =>
    unfold argmaxFrom
    by_cases h : f b > f a
    · rw [if_pos h]
      obtain ⟨pre, post, h1, h2, h3⟩ := ih b
      have hb := h3 b (by simp)
      refine ⟨a :: pre, post, by rw [h1]; simp, ?_, ?_⟩
      · intro x hx
        rcases List.mem_cons.mp hx with rfl | hx
        · linarith
        · exact h2 x hx
      · intro x hx
        rcases List.mem_cons.mp hx with rfl | hx
        · linarith
        · exact h3 x hx
    · rw [if_neg h]
      push Not at h
      obtain ⟨pre, post, h1, h2, h3⟩ := ih a
      have ha := h3 a (by simp)
      cases pre with
      | nil =>
        simp only [List.nil_append, List.cons.injEq] at h1
        refine ⟨[], b :: post, by rw [← h1.2, List.nil_append, ← h1.1], by simp, ?_⟩
        intro x hx
        rcases List.mem_cons.mp hx with rfl | hx
        · exact ha
        · rcases List.mem_cons.mp hx with rfl | hx
          · linarith
          · exact h3 x (by simp [hx])
      | cons c pre =>
        simp only [List.cons_append, List.cons.injEq] at h1
        obtain ⟨rfl, h1⟩ := h1
        have hlt := h2 a (by simp)
        refine ⟨a :: b :: pre, post, by simp [h1.symm], ?_, ?_⟩
        · intro x hx
          rcases List.mem_cons.mp hx with rfl | hx
          · exact hlt
          · rcases List.mem_cons.mp hx with rfl | hx
            · linarith
            · exact h2 x (by simp [hx])
        · intro x hx
          rcases List.mem_cons.mp hx with rfl | hx
          · exact ha
          · rcases List.mem_cons.mp hx with rfl | hx
            · linarith
            · exact h3 x (by simp [hx])

/-- C25: the reported mode is the smallest grid point of maximal mass. -/
theorem discrete_mode (f : ℤ → ℝ) (grid : List ℤ) (hg : grid ≠ []) (hs : grid.Pairwise (· < ·)) :
    ∃ r ∈ grid, findDiscreteMode f grid = .ok r ∧ (∀ x ∈ grid, f x ≤ f r) ∧
      ∀ x ∈ grid, x < r → f x < f r := by
  cases grid with
  | nil => exact absurd rfl hg
  | cons a l =>
    obtain ⟨pre, post, h1, h2, h3⟩ := argmaxFrom_spec f l a
    refine ⟨argmaxFrom f a l, by rw [h1]; simp, rfl, h3, fun x hx hlt => ?_⟩
    rw [h1] at hx hs
    rcases List.mem_append.mp hx with h | h
    · exact h2 x h
    · exfalso
      rcases List.mem_cons.mp h with rfl | h
      · exact lt_irrefl _ hlt
      · have := (List.pairwise_cons.mp (List.pairwise_append.mp hs).2.1).1 x h
        omega

/-- C25 for a distribution supported between integer end points no more than `n_points` apart: the
reported mode is a mode of the whole distribution. -/
theorem discrete_mode_global (f : ℤ → ℝ) (lower upper : ℤ) (n : ℕ) (hle : lower ≤ upper)
    (hr : upper - lower ≤ n) (hf : ∀ x, 0 ≤ f x) (h0 : ∀ x, ¬ (lower ≤ x ∧ x ≤ upper) → f x = 0) :
    ∃ r, findDiscreteMode f (discreteXvals lower upper n) = .ok r ∧ ∀ x, f x ≤ f r := by
  obtain ⟨hs, hm⟩ := xvals_small lower upper n hr
  obtain ⟨r, -, h1, h2, -⟩ := discrete_mode f (discreteXvals lower upper n)
    (List.ne_nil_of_mem ((hm lower).mpr ⟨le_rfl, hle⟩)) hs
  refine ⟨r, h1, fun x => ?_⟩
  by_cases h : lower ≤ x ∧ x ≤ upper
  · exact h2 x ((hm x).mpr h)
  · rw [h0 x h]; exact hf r

/-- On a longer range the grid skips integers and the reported mode need not be one: a distribution
concentrated at 1 inside [0, 1000] is given the mode 0. -/
theorem discrete_mode_missed :
    ∃ (f : ℤ → ℝ), (∀ x, 0 ≤ f x) ∧ f 0 < f 1 ∧
      findDiscreteMode f (discreteXvals 0 1000 200) = .ok 0 := by
  refine ⟨fun x => if x = 1 then 1 else 0, fun x => by dsimp only; split_ifs <;> norm_num, by norm_num, ?_⟩
  obtain ⟨-, hs, hh, -, -⟩ := xvals_large_partial 0 1000 200 (by norm_num) (by norm_num) (by decide)
  have h1 : (1 : ℤ) ∉ discreteXvals 0 1000 200 := by decide +kernel
  generalize discreteXvals 0 1000 200 = g at *
  cases g with
  | nil => simp at hh
  | cons a l =>
    simp at hh
    subst hh
    have : ∀ l : List ℤ, (1 : ℤ) ∉ l → argmaxFrom (fun x => if x = 1 then (1 : ℝ) else 0) 0 l = 0 := by
      intro l
      induction l with
      | nil => intro _; rfl
      | cons b l ih =>
        intro h
        simp at h
        unfold argmaxFrom
        rw [if_neg (by simp [Ne.symm h.1])]
        exact ih h.2
    simp at h1
    simp only [findDiscreteMode]
    rw [this l h1]

example : ∃ r ∈ [0, 1, 2], findDiscreteMode (fun k => if k = 1 then 2 else 1) [0, 1, 2] = .ok r ∧
    (∀ x ∈ [0, 1, 2], (fun k : ℤ => if k = 1 then (2 : ℝ) else 1) x ≤
      (fun k : ℤ => if k = 1 then (2 : ℝ) else 1) r) ∧ ∀ x ∈ [0, 1, 2], x < r →
      (fun k : ℤ => if k = 1 then (2 : ℝ) else 1) x < (fun k : ℤ => if k = 1 then (2 : ℝ) else 1) r :=
  discrete_mode (fun k => if k = 1 then 2 else 1) [0, 1, 2] (by simp) (by decide)

/-! ### C24 -/

/-- a cdf: the two limits -/
structure CdfLimits (cdf : ℝ → ℝ) : Prop where
  bot : Tendsto cdf atBot (𝓝 0)
  top : Tendsto cdf atTop (𝓝 1)

/-- C24: the bracketing loops end, and the root finder is called on an interval `L < R` with
`cdf L ≤ q ≤ cdf R`, so it does not raise. -/
theorem ppf_bracket (solve : (ℝ → ℝ) → ℝ → ℝ → ℝ) (cdf : ℝ → ℝ) (hc : CdfLimits cdf) (hi : EReal)
    (hhi : hi ≠ ⊥) (q : ℝ) (h0 : 0 < q) (h1 : q < 1) :
    (∃ r, ppfSingle solve cdf hi q r) ∧ ∀ r, ppfSingle solve cdf hi q r →
      ∃ L R : ℝ, L < R ∧ cdf L ≤ q ∧ q ≤ cdf R ∧ r = .ok (solve (fun x => cdf x - q) L R) := by
  classical
  have hstart : (min (((-10 : ℝ)) : EReal) hi).toReal ≤ -10 := by
    rcases le_total (((-10 : ℝ)) : EReal) hi with h | h
    · rw [min_eq_left h]; simp
    · rw [min_eq_right h]
      have hne : hi ≠ ⊤ := fun h' => by rw [h'] at h; exact absurd h (by simp)
      have := EReal.toReal_le_toReal h hhi (by simp)
      simpa using this
  -- states reached on the left are at most -10
  have hleft : ∀ s t : ℝ × ℝ, s.1 ≤ -10 → expandLeft cdf q s t → t.1 ≤ -10 ∧ cdf t.1 ≤ q := by
    intro s t hs ht
    refine ⟨Loop.Ends.inv (fun u => u.1 ≤ -10) ht hs (fun x _ hx => by
      change x.1 * 10 ≤ -10; linarith), ?_⟩
    have := Loop.Ends.stop ht
    simp at this
    exact this
  have hright : ∀ s t : ℝ × ℝ, s.1 < s.2 → 10 ≤ s.2 → cdf s.1 ≤ q → expandRight cdf q s t →
      t.1 < t.2 ∧ cdf t.1 ≤ q ∧ q ≤ cdf t.2 := by
    intro s t hs h10 hq ht
    obtain ⟨a, b, c⟩ := Loop.Ends.inv (fun u => u.1 < u.2 ∧ 10 ≤ u.2 ∧ cdf u.1 ≤ q) ht
      ⟨hs, h10, hq⟩ (fun x hx ⟨_, h2, _⟩ => by
        simp at hx
        refine ⟨?_, ?_, hx.le⟩
        · change x.2 < x.2 * 10; linarith
        · change 10 ≤ x.2 * 10; linarith)
    have := Loop.Ends.stop ht
    simp at this
    exact ⟨a, c, this⟩
  refine ⟨?_, ?_⟩
  · -- termination
    set l0 := (min (((-10 : ℝ)) : EReal) hi).toReal with hl0
    have it1 : ∀ (n : ℕ) (s : ℝ × ℝ), ((fun s : ℝ × ℝ => (s.1 * 10, s.1))^[n] s).1 = s.1 * 10 ^ n := by
      intro n
      induction n with
      | zero => simp
      | succ n ih => intro s; rw [Function.iterate_succ_apply, ih]; simp [pow_succ]; ring
    have it2 : ∀ (n : ℕ) (s : ℝ × ℝ), ((fun s : ℝ × ℝ => (s.2, s.2 * 10))^[n] s).2 = s.2 * 10 ^ n := by
      intro n
      induction n with
      | zero => simp
      | succ n ih => intro s; rw [Function.iterate_succ_apply, ih]; simp [pow_succ]; ring
    have t10 : Tendsto (fun n : ℕ => (10 : ℝ) ^ n) atTop atTop :=
      tendsto_pow_atTop_atTop_of_one_lt (by norm_num)
    have e1 : ∃ t, expandLeft cdf q (l0, hi.toReal) t := by
      apply Loop.ends_of_iterate
      have : Tendsto (fun n : ℕ => l0 * 10 ^ n) atTop atBot :=
        t10.const_mul_atTop_of_neg (by linarith)
      obtain ⟨n, hn⟩ := ((hc.bot.comp this).eventually (gt_mem_nhds h0)).exists
      refine ⟨n, ?_⟩
      simp only [it1, decide_eq_false_iff_not]
      simp only [Function.comp] at hn
      linarith
    obtain ⟨⟨left, right⟩, ht⟩ := e1
    have e2 : ∃ t, expandRight cdf q (left, max 10 left) t := by
      apply Loop.ends_of_iterate
      have hpos : (0 : ℝ) < max 10 left := lt_of_lt_of_le (by norm_num) (le_max_left _ _)
      have : Tendsto (fun n : ℕ => max 10 left * 10 ^ n) atTop atTop := t10.const_mul_atTop hpos
      obtain ⟨n, hn⟩ := ((hc.top.comp this).eventually (lt_mem_nhds h1)).exists
      refine ⟨n, ?_⟩
      simp only [it2, decide_eq_false_iff_not]
      simp only [Function.comp] at hn
      linarith
    obtain ⟨⟨L, R⟩, ht'⟩ := e2
    exact ⟨_, left, right, L, R, ht, ht', rfl⟩
  · rintro r ⟨left, right, L, R, ha, hb, rfl⟩
    obtain ⟨a1, a2⟩ := hleft _ _ hstart ha
    have hm : max 10 left = 10 := max_eq_left (by simp at a1; linarith)
    rw [hm] at hb
    simp only at a1 a2
    obtain ⟨b1, b2, b3⟩ := hright _ _ (by simp; linarith) (by simp) a2 hb
    refine ⟨L, R, b1, b2, b3, ?_⟩
    unfold brentq
    rw [if_neg]
    have c1 : cdf L - q ≤ 0 := by linarith
    have c2 : 0 ≤ cdf R - q := by linarith
    have := mul_nonpos_of_nonpos_of_nonneg c1 c2
    exact not_lt.mpr this

/-- what is trusted about the root finder: given a sign change of a continuous function it returns a
root inside the bracket -/
def FindsRoots (solve : (ℝ → ℝ) → ℝ → ℝ → ℝ) : Prop :=
  ∀ (f : ℝ → ℝ) (a b : ℝ), Continuous f → a < b → f a ≤ 0 → 0 ≤ f b →
    a ≤ solve f a b ∧ solve f a b ≤ b ∧ f (solve f a b) = 0

/-- C24: outside [0, 1] NaN; at 0 and 1 the ends of the support (one below the lower end for discrete
distributions). -/
theorem findPpf_edges (solve : (ℝ → ℝ) → ℝ → ℝ → ℝ) (cdf : ℝ → ℝ) (d s : Bool) (lo hi : EReal) (q : ℝ)
    (r : Except Err (Option EReal)) :
    ((q < 0 ∨ 1 < q) → (findPpf solve cdf d s lo hi q r ↔ r = .ok none)) ∧
      (findPpf solve cdf false s lo hi 0 r ↔ r = .ok (some lo)) ∧
      (findPpf solve cdf true s lo hi 0 r ↔ r = .ok (some (lo - 1))) ∧
      (findPpf solve cdf d s lo hi 1 r ↔ r = .ok (some hi)) := by
  refine ⟨?_, ?_, ?_, ?_⟩
  · rintro (h | h)
    · simp [findPpf, h]
    · by_cases h' : q < 0 <;> simp [findPpf, h, h']
  all_goals simp [findPpf]

/-- C24: on (0, 1), for a continuous cdf, the search terminates and every outcome is a point where the
cdf equals `q`. -/
theorem findPpf_inverse (solve : (ℝ → ℝ) → ℝ → ℝ → ℝ) (hsolve : FindsRoots solve) (cdf : ℝ → ℝ)
    (hc : CdfLimits cdf) (hcont : Continuous cdf) (d : Bool) (lo hi : EReal) (hhi : hi ≠ ⊥) (q : ℝ)
    (h0 : 0 < q) (h1 : q < 1) :
    (∃ r, findPpf solve cdf d false lo hi q r) ∧ ∀ r, findPpf solve cdf d false lo hi q r →
      ∃ x : ℝ, r = .ok (some (x : EReal)) ∧ cdf x = q := by
  obtain ⟨⟨r, hr⟩, h⟩ := ppf_bracket solve cdf hc hi hhi q h0 h1
  have e : ∀ r, findPpf solve cdf d false lo hi q r ↔ ∃ s, ppfSingle solve cdf hi q s ∧
      r = s.map fun x => some ((x : ℝ) : EReal) := by
    intro r
    unfold findPpf
    rw [if_neg (by linarith), if_neg (by linarith), if_neg (by linarith), if_neg (by linarith)]
    simp
  refine ⟨⟨_, (e _).mpr ⟨r, hr, rfl⟩⟩, fun r' hr' => ?_⟩
  obtain ⟨s, hs, rfl⟩ := (e _).mp hr'
  obtain ⟨L, R, hLR, hL, hR, rfl⟩ := h s hs
  obtain ⟨-, -, h3⟩ := hsolve (fun x => cdf x - q) L R (hcont.sub continuous_const) hLR
    (by simp; linarith) (by simp; linarith)
  exact ⟨_, rfl, by linarith⟩

/-- C24: if the cdf increases strictly wherever it is strictly between 0 and 1, the point found is the
quantile. -/
theorem findPpf_quantile (solve : (ℝ → ℝ) → ℝ → ℝ → ℝ) (hsolve : FindsRoots solve)
    (μ : Measure ℝ) [IsProbabilityMeasure μ] (hcont : Continuous fun x => μ.real (Set.Iic x))
    (hstrict : ∀ x y, x < y → 0 < μ.real (Set.Iic x) → μ.real (Set.Iic x) < 1 →
      μ.real (Set.Iic x) < μ.real (Set.Iic y))
    (d : Bool) (lo hi : EReal) (hhi : hi ≠ ⊥) (q : ℝ) (h0 : 0 < q) (h1 : q < 1)
    (r : Except Err (Option EReal))
    (hr : findPpf solve (fun x => μ.real (Set.Iic x)) d false lo hi q r) :
    ∃ x : ℝ, r = .ok (some (x : EReal)) ∧ IsQuantile μ q x := by
  have hc : CdfLimits fun x => μ.real (Set.Iic x) := by
    refine ⟨?_, ?_⟩
    · exact (ProbabilityTheory.tendsto_cdf_atBot μ).congr (ProbabilityTheory.cdf_eq_real μ)
    · exact (ProbabilityTheory.tendsto_cdf_atTop μ).congr (ProbabilityTheory.cdf_eq_real μ)
  obtain ⟨-, h⟩ := findPpf_inverse solve hsolve _ hc hcont d lo hi hhi q h0 h1
  obtain ⟨x, hx, hq⟩ := h r hr
  refine ⟨x, hx, fun y => ?_⟩
  constructor
  · intro hxy
    rw [← hq]
    exact measureReal_mono (Set.Iic_subset_Iic.mpr (by exact_mod_cast hxy))
  · intro hy
    by_contra hlt
    have hlt : y < x := by
      rw [not_le] at hlt; exact_mod_cast hlt
    have a : μ.real (Set.Iic y) ≤ q := by
      rw [← hq]; exact measureReal_mono (Set.Iic_subset_Iic.mpr hlt.le)
    have hyq : μ.real (Set.Iic y) = q := le_antisymm a hy
    have := hstrict y x hlt (by rw [hyq]; exact h0) (by rw [hyq]; exact h1)
    rw [hyq, hq] at this
    exact lt_irrefl _ this

/-- a root finder with the trusted contract exists -/
theorem findsRoots_exists : ∃ solve, FindsRoots solve := by
  classical
  have : ∀ (f : ℝ → ℝ) (a b : ℝ), ∃ x, Continuous f → a < b → f a ≤ 0 → 0 ≤ f b →
      a ≤ x ∧ x ≤ b ∧ f x = 0 := by
    intro f a b
    by_cases h : Continuous f ∧ a < b ∧ f a ≤ 0 ∧ 0 ≤ f b
    · obtain ⟨h1, h2, h3, h4⟩ := h
      obtain ⟨x, hx, hx'⟩ := intermediate_value_Icc h2.le h1.continuousOn ⟨h3, h4⟩
      exact ⟨x, fun _ _ _ _ => ⟨hx.1, hx.2, hx'⟩⟩
    · exact ⟨0, fun a1 a2 a3 a4 => absurd ⟨a1, a2, a3, a4⟩ h⟩
  choose g hg using this
  exact ⟨g, hg⟩

/-- a cdf meeting the hypotheses, with the whole line as support -/
theorem ramp_limits : CdfLimits fun x => max 0 (min 1 x) := by
  constructor
  · apply tendsto_const_nhds.congr'
    filter_upwards [eventually_le_atBot (0 : ℝ)] with x hx
    rw [max_eq_left ((min_le_right _ _).trans hx)]
  · apply tendsto_const_nhds.congr'
    filter_upwards [eventually_ge_atTop (1 : ℝ)] with x hx
    rw [min_eq_left hx]; norm_num

example : ∃ (solve : (ℝ → ℝ) → ℝ → ℝ → ℝ) (r : Except Err (Option EReal)),
    findPpf solve (fun x => max 0 (min 1 x)) false false 0 1 (1 / 4) r ∧
      ∃ x : ℝ, r = .ok (some (x : EReal)) ∧ max 0 (min 1 x) = 1 / 4 := by
  obtain ⟨solve, hs⟩ := findsRoots_exists
  obtain ⟨⟨r, hr⟩, h⟩ := findPpf_inverse solve hs _ ramp_limits (by fun_prop) false 0 1 (by exact EReal.coe_ne_bot 1)
    (1 / 4) (by norm_num) (by norm_num)
  exact ⟨solve, r, hr, h r hr⟩

end Verif.Props
