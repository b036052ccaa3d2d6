import Verif.Model.Redraw
import Mathlib.Tactic

set_option linter.unusedSimpArgs false

/-!
# C83: drawings of `predictive_explorer`
-/

namespace Verif.Props
open Verif Verif.Redraw

/-! ## the curves -/

/-- the share of the values below `x`, and up to `x` -/
noncomputable def shareBelow (r : List ℝ) (x : ℝ) : ℝ := (r.countP (· < x) : ℝ) / r.length
noncomputable def shareUpTo (r : List ℝ) (x : ℝ) : ℝ := (r.countP (· ≤ x) : ℝ) / r.length

/-- C83: the curve of a sample has one point per value, in increasing order, and the height of each lies between the share
of the values below it and that of the values up to it (strictly below the latter, so the curve stays under 1). -/
theorem ecdf_heights (r : List ℝ) :
    ((ecdfCurve r).map Prod.fst).Perm r ∧ ((ecdfCurve r).map Prod.fst).Pairwise (· ≤ ·) ∧
    ∀ p ∈ ecdfCurve r, shareBelow r p.1 ≤ p.2 ∧ p.2 < shareUpTo r p.1 := by
  have hfst : (ecdfCurve r).map Prod.fst = r.insertionSort (· ≤ ·) := by
    unfold ecdfCurve
    apply List.ext_getElem?
    intro i
    simp [List.getElem?_map, List.getElem?_mapIdx]
    cases (r.insertionSort (· ≤ ·))[i]? <;> simp
  have hperm := List.perm_insertionSort (α := ℝ) (· ≤ ·) r
  have hsort := List.pairwise_insertionSort (α := ℝ) (· ≤ ·) r
  refine ⟨by rw [hfst]; exact hperm, by rw [hfst]; exact hsort, ?_⟩
  intro p hp
  unfold ecdfCurve at hp
  rw [List.mem_mapIdx] at hp
  obtain ⟨i, hi, rfl⟩ := hp
  dsimp only
  have hlen := hperm.length_eq
  have hr : (0 : ℝ) < r.length := by
    have : 0 < r.length := by omega
    exact_mod_cast this
  unfold shareBelow shareUpTo
  rw [← hperm.countP_eq, ← hperm.countP_eq]
  generalize r.insertionSort (· ≤ ·) = s at *
  rw [List.pairwise_iff_getElem] at hsort
  constructor
  · apply div_le_div_of_nonneg_right _ hr.le
    have h0 : (s.drop i).countP (· < s[i]) = 0 := by
      rw [List.countP_eq_zero]
      intro a ha
      obtain ⟨j, hj, rfl⟩ := List.mem_iff_getElem.1 ha
      rw [List.getElem_drop]
      simp only [decide_eq_true_eq, not_lt]
      rcases Nat.eq_zero_or_pos j with rfl | hj'
      · simp
      · exact hsort i (i + j) hi (by rw [List.length_drop] at hj; omega) (by omega)
    have h1 : s.countP (· < s[i]) ≤ i := by
      have h3 : s.countP (· < s[i]) = (s.take i).countP (· < s[i]) + (s.drop i).countP (· < s[i]) := by
        generalize s[i] = x
        rw [← List.countP_append, List.take_append_drop]
      have h2 := List.countP_le_length (l := s.take i) (p := fun x => decide (x < s[i]))
      rw [List.length_take] at h2
      omega
    exact_mod_cast h1
  · apply div_lt_div_of_pos_right _ hr
    have h1 : i + 1 ≤ s.countP (· ≤ s[i]) := by
      have h2 : (s.take (i + 1)).countP (· ≤ s[i]) = i + 1 := by
        rw [List.countP_eq_length.2, List.length_take]
        · omega
        · intro a ha
          obtain ⟨j, hj, rfl⟩ := List.mem_iff_getElem.1 ha
          rw [List.getElem_take]
          rw [List.length_take] at hj
          simp only [decide_eq_true_eq]
          rcases Nat.lt_or_ge j i with h | h
          · exact hsort j i (by omega) hi h
          · have : j = i := by omega
            subst this
            exact le_rfl
      have h3 := (List.take_sublist (i + 1) s).countP_le (p := fun x => decide (x ≤ s[i]))
      omega
    have : ((i : ℝ) + 1) ≤ (s.countP (· ≤ s[i]) : ℝ) := by exact_mod_cast h1
    linarith

/-- C83: dropped are exactly the runs with a missing value. -/
theorem kept_runs (runs : List (List (Option ℝ))) (vs : List ℝ) :
    vs ∈ keep runs ↔ vs.map some ∈ runs := by
  unfold keep
  rw [List.mem_map]
  constructor
  · rintro ⟨r, hr, rfl⟩
    rw [List.mem_filter] at hr
    have : (r.filterMap id).map some = r := by
      have h := hr.2
      clear hr
      induction r with
      | nil => rfl
      | cons a t ih =>
        cases a with
        | none => simp at h
        | some a =>
          simp only [List.filterMap_cons_some (by rfl : id (some a) = some a), List.map_cons]
          rw [ih (by simpa using h)]
    rw [this]
    exact hr.1
  · intro h
    refine ⟨vs.map some, ?_, ?_⟩
    · rw [List.mem_filter]
      refine ⟨h, ?_⟩
      simp
    · rw [List.filterMap_map]
      simp

/-! ## sessions -/

/-- what a drawing of curves should show: one curve for each complete run and one for all values together -/
noncomputable def expectedCurves (f : List ℝ → List (ℝ × ℝ)) (r : Round) : List Shape :=
  (keep r.runs).map (fun v => .curve (f v)) ++ [.curve (f (keep r.runs).flatten)]

noncomputable def curveOf (kde : List ℝ → List (ℝ × ℝ)) : Kind → List ℝ → List (ℝ × ℝ)
  | .kde => kde
  | _ => ecdfCurve

/-- a dictionary that only has a line style, one colour, a transparency -/
def LineKw (k : Kw) : Prop :=
  k.bins = none ∧ k.density = none ∧ k.histtype = none ∧ ∀ n, k.color ≠ some (.several n)

theorem curve_round (kde : List ℝ → List (ℝ × ℝ)) (iterations : ℕ) (r : Round) (k : Kw) (hk : LineKw k)
    (hr : r.kind ≠ .hist) (hne : keep r.runs ≠ []) :
    (plotRepr kde r.kind r.ints (keep r.runs) iterations k).1 = .ok (expectedCurves (curveOf kde r.kind) r) ∧
    LineKw (plotRepr kde r.kind r.ints (keep r.runs) iterations k).2 := by
  obtain ⟨h1, h2, h3, h4⟩ := hk
  have hc : plotChecks { withAlpha iterations k with color := some ((withAlpha iterations k).color.getD .single) }
      = .ok () := by
    unfold plotChecks withAlpha
    simp only [h1, h2, h3, Option.isSome_none, Bool.false_eq_true, or_self, if_false]
    cases hcol : k.color with
    | none => rfl
    | some c =>
      cases c with
      | single => rfl
      | several n => exact absurd hcol (h4 n)
  have hl : LineKw { withAlpha iterations k with color := some ((withAlpha iterations k).color.getD .single) } := by
    refine ⟨h1, h2, h3, ?_⟩
    intro n hn
    simp only [withAlpha, Option.some.injEq] at hn
    cases hcol : k.color with
    | none => rw [hcol] at hn; simp at hn
    | some c => rw [hcol] at hn; simp only [Option.getD_some] at hn; exact h4 n (by rw [hcol, hn])
  unfold plotRepr
  cases hkind : r.kind with
  | hist => exact absurd hkind hr
  | kde =>
    dsimp only
    rw [if_neg hne, hc]
    exact ⟨rfl, hl⟩
  | ecdf =>
    dsimp only
    rw [if_neg hne, hc]
    exact ⟨rfl, hl⟩

/-- C83: unless the user set a transparency, every drawing leaves one between 0.01 and 1 in the dictionary, and fewer
runs are drawn more opaquely; a transparency of the user's is kept. -/
theorem alpha_range (kde : List ℝ → List (ℝ × ℝ)) (kind : Kind) (ints : Bool) (results : List (List ℝ)) (k : Kw) :
    (∀ n a, k.alpha = some a → (plotRepr kde kind ints results n k).2.alpha = some a) ∧
    (k.alpha = none → ∃ a : ℕ → ℝ, (∀ n, (plotRepr kde kind ints results n k).2.alpha = some (a n)) ∧ a 0 = 1 ∧
      Antitone a ∧ ∀ n, 0.01 ≤ a n) := by
  have key : ∀ n, (plotRepr kde kind ints results n k).2.alpha = (withAlpha n k).alpha := by
    intro n
    unfold plotRepr
    cases kind with
    | hist =>
      dsimp only
      split_ifs <;> rfl
    | kde =>
      dsimp only
      split_ifs
      · rfl
      · cases plotChecks { withAlpha n k with color := some ((withAlpha n k).color.getD .single) } <;> rfl
    | ecdf =>
      dsimp only
      split_ifs
      · rfl
      · cases plotChecks { withAlpha n k with color := some ((withAlpha n k).color.getD .single) } <;> rfl
  constructor
  · intro n a h
    rw [key]
    simp [withAlpha, h]
  · intro h
    refine ⟨fun n => max 0.01 (1 - n * 0.009), fun n => ?_, ?_, ?_, fun n => le_max_left _ _⟩
    · rw [key]
      simp [withAlpha, h]
    · norm_num
    · intro n m hnm
      have : (n : ℝ) ≤ m := by exact_mod_cast hnm
      exact max_le_max le_rfl (by linarith)

/-- C83: in a session in which only curves (`kde`, `ecdf`) are chosen, every drawing shows one curve per complete run of
that drawing and one for all its values, as long as some run is complete.

Partial: sessions with histograms are excluded, see the next theorems. -/
theorem curve_sessions_partial (kde : List ℝ → List (ℝ × ℝ)) (iterations : ℕ) (rs : List Round) (k : Kw)
    (hk : LineKw k) (hr : ∀ r ∈ rs, r.kind ≠ .hist ∧ keep r.runs ≠ []) :
    session kde iterations rs k = rs.map fun r => .ok (expectedCurves (curveOf kde r.kind) r) := by
  induction rs generalizing k with
  | nil => rfl
  | cons r rs ih =>
    obtain ⟨h1, h2⟩ := curve_round kde iterations r k hk (hr r (by simp)).1 (hr r (by simp)).2
    unfold session
    dsimp only
    rw [h1, ih _ h2 (fun r hr' => hr r (by simp [hr'])), List.map_cons]

/-- C83, what fails: a histogram chosen after a curve raises an error, unless there is exactly one run. -/
theorem hist_after_curve_fails (kde : List ℝ → List (ℝ × ℝ)) (iterations : ℕ) (r r' : Round) (k : Kw) (hk : LineKw k)
    (hr : r.kind ≠ .hist) (hne : keep r.runs ≠ []) (hr' : r'.kind = .hist) (hlen : (keep r'.runs).length ≠ 1) :
    ∃ e, (session kde iterations [r, r'] k)[1]? = some (.error e) := by
  obtain ⟨h1, -⟩ := curve_round kde iterations r k hk hr hne
  have hcol : (plotRepr kde r.kind r.ints (keep r.runs) iterations k).2.color = some .single := by
    obtain ⟨c1, c2, c3, h4⟩ := hk
    have hg : (k.color.getD .single) = .single := by
      cases hcol : k.color with
      | none => rfl
      | some c =>
        cases c with
        | single => rfl
        | several n => exact absurd hcol (h4 n)
    have hc : plotChecks { withAlpha iterations k with color := some ((withAlpha iterations k).color.getD .single) }
        = .ok () := by
      unfold plotChecks withAlpha
      simp only [c1, c2, c3, Option.isSome_none, Bool.false_eq_true, or_self, if_false, hg]
    unfold plotRepr
    cases hkind : r.kind with
    | hist => exact absurd hkind hr
    | kde => dsimp only; rw [if_neg hne, hc]; exact congrArg some hg
    | ecdf => dsimp only; rw [if_neg hne, hc]; exact congrArg some hg
  unfold session session
  simp only [List.getElem?_cons_succ, List.getElem?_cons_zero]
  generalize (plotRepr kde r.kind r.ints (keep r.runs) iterations k).2 = k' at *
  unfold plotRepr
  rw [hr']
  dsimp only
  by_cases h0 : keep r'.runs = []
  · rw [if_pos h0]; exact ⟨_, rfl⟩
  · rw [if_neg h0]
    have : colorsFit (keep r'.runs).length (histKw r'.ints (keep r'.runs) iterations (withAlpha iterations k')).color
        = false := by
      simp only [histKw, withAlpha, hcol, Option.getD_some, colorsFit, decide_eq_false_iff_not]
      exact hlen
    rw [this]
    exact ⟨_, rfl⟩

/-- C83, what fails: a curve chosen after a histogram that was shown raises an error, whatever the values. -/
theorem curve_after_hist_fails (kde : List ℝ → List (ℝ × ℝ)) (iterations : ℕ) (r r' : Round) (k : Kw) (hr : r.kind = .hist)
    (hok : ∃ shapes, (session kde iterations [r, r'] k)[0]? = some (.ok shapes)) (hr' : r'.kind ≠ .hist) :
    ∃ e, (session kde iterations [r, r'] k)[1]? = some (.error e) := by
  have hb : (plotRepr kde r.kind r.ints (keep r.runs) iterations k).2.bins.isSome = true := by
    obtain ⟨sh, hsh⟩ := hok
    unfold session at hsh
    simp only [List.getElem?_cons_zero, Option.some.injEq] at hsh
    unfold plotRepr at hsh ⊢
    rw [hr] at hsh ⊢
    dsimp only at hsh ⊢
    by_cases h0 : keep r.runs = []
    · rw [if_pos h0] at hsh; simp at hsh
    · rw [if_neg h0] at hsh ⊢
      split_ifs at hsh ⊢ <;> simp [histKw]
  unfold session session
  simp only [List.getElem?_cons_succ, List.getElem?_cons_zero]
  generalize (plotRepr kde r.kind r.ints (keep r.runs) iterations k).2 = k' at *
  have hc : plotChecks { withAlpha iterations k' with color := some ((withAlpha iterations k').color.getD .single) }
      = .error .attributeError := by
    unfold plotChecks withAlpha
    simp only [hb, true_or, if_true]
  unfold plotRepr
  cases hkind : r'.kind with
  | hist => exact absurd hkind hr'
  | kde =>
    dsimp only
    by_cases h0 : keep r'.runs = []
    · rw [if_pos h0]; exact ⟨_, rfl⟩
    · rw [if_neg h0, hc]; exact ⟨_, rfl⟩
  | ecdf =>
    dsimp only
    by_cases h0 : keep r'.runs = []
    · rw [if_pos h0]; exact ⟨_, rfl⟩
    · rw [if_neg h0, hc]; exact ⟨_, rfl⟩

/-- C83, what fails: colours given by the user, one for each complete run, are forgotten after the first histogram; if
there are fewer complete runs than iterations, drawing the same histogram again raises an error. -/
theorem hist_forgets_colours (kde : List ℝ → List (ℝ × ℝ)) (iterations n : ℕ) (r : Round) (k : Kw) (hr : r.kind = .hist)
    (hn : (keep r.runs).length = n) (h0 : n ≠ 0) (hi : n ≠ iterations) (hk : k.color = some (.several n)) :
    ∃ shapes, session kde iterations [r, r] k = [.ok shapes, .error .valueError] := by
  have hne : keep r.runs ≠ [] := by
    intro h; rw [h] at hn; exact h0 hn.symm
  have hfit : colorsFit (keep r.runs).length (histKw r.ints (keep r.runs) iterations (withAlpha iterations k)).color
      = true := by
    simp [histKw, withAlpha, hk, colorsFit, hn]
  have hout : ∃ shapes k', plotRepr kde r.kind r.ints (keep r.runs) iterations k = (.ok shapes, k') ∧ k'.color = none := by
    unfold plotRepr
    rw [hr]
    dsimp only
    rw [if_neg hne, hfit]
    exact ⟨_, _, rfl, rfl⟩
  obtain ⟨shapes, k', h1, h2⟩ := hout
  have hfit' : colorsFit (keep r.runs).length (histKw r.ints (keep r.runs) iterations (withAlpha iterations k')).color
      = false := by
    simp only [histKw, withAlpha, h2, Option.getD_none, colorsFit, hn, decide_eq_false_iff_not]
    exact fun h => hi h.symm
  refine ⟨shapes, ?_⟩
  unfold session session session
  dsimp only
  rw [h1]
  dsimp only
  unfold plotRepr
  rw [hr]
  dsimp only
  rw [if_neg hne, hfit']
  rfl

-- two of three runs are complete, two colours
example : ∃ shapes, session (fun _ => []) 3 [⟨.hist, false, [[some 1], [none], [some 2]]⟩, ⟨.hist, false, [[some 1], [none], [some 2]]⟩]
    { color := some (.several 2) } = [.ok shapes, .error .valueError] :=
  hist_forgets_colours _ 3 2 _ _ rfl (by simp [keep]) (by norm_num) (by norm_num) rfl

/-- C83, what fails: a histogram raises an error when some runs were dropped. -/
theorem hist_dropped_fails (kde : List ℝ → List (ℝ × ℝ)) (r : Round) (hr : r.kind = .hist) (iterations : ℕ)
    (hlen : (keep r.runs).length ≠ iterations) :
    ∃ e, session kde iterations [r] {} = [.error e] := by
  unfold session session plotRepr
  rw [hr]
  dsimp only
  by_cases h0 : keep r.runs = []
  · rw [if_pos h0]; exact ⟨_, rfl⟩
  · rw [if_neg h0]
    have : colorsFit (keep r.runs).length (histKw r.ints (keep r.runs) iterations (withAlpha iterations {})).color
        = false := by
      simp only [histKw, withAlpha, Option.getD_none, colorsFit, decide_eq_false_iff_not]
      exact fun h => hlen h.symm
    rw [this]
    exact ⟨_, rfl⟩

/-- the value lies in one of the bins -/
def InBins (v : ℝ) : Bins → Prop
  | .auto => True
  | .edges e => ∃ i, ∃ a b, e[i]? = some a ∧ e[i + 1]? = some b ∧ a ≤ v ∧ v < b

theorem foldl_min_le (l : List ℤ) (a : ℤ) : l.foldl min a ≤ a ∧ ∀ x ∈ l, l.foldl min a ≤ x := by
  induction l generalizing a with
  | nil => simp
  | cons b l ih =>
    obtain ⟨h1, h2⟩ := ih (min a b)
    rw [List.foldl_cons]
    refine ⟨h1.trans (min_le_left _ _), ?_⟩
    intro x hx
    rcases List.mem_cons.1 hx with rfl | hx
    · exact h1.trans (min_le_right _ _)
    · exact h2 x hx

theorem le_foldl_max (l : List ℤ) (a : ℤ) : a ≤ l.foldl max a ∧ ∀ x ∈ l, x ≤ l.foldl max a := by
  induction l generalizing a with
  | nil => simp
  | cons b l ih =>
    obtain ⟨h1, h2⟩ := ih (max a b)
    rw [List.foldl_cons]
    refine ⟨(le_max_left _ _).trans h1, ?_⟩
    intro x hx
    rcases List.mem_cons.1 hx with rfl | hx
    · exact (le_max_right _ _).trans h1
    · exact h2 x hx

theorem intBins_mem (lo hi z : ℤ) (v : ℝ) (hv : (z : ℝ) - 0.5 ≤ v ∧ v < z + 0.5) (h1 : lo ≤ z) (h2 : z ≤ hi) :
    InBins v (intBins lo hi) := by
  refine ⟨(z - lo).toNat, (z : ℝ) - 0.5, (z : ℝ) + 0.5, ?_, ?_, hv.1, hv.2⟩
  · rw [List.getElem?_map, List.getElem?_range (by omega)]
    simp only [Option.map_some, Option.some.injEq]
    have : (((z - lo).toNat : ℤ) : ℝ) = ((z - lo : ℤ) : ℝ) := by rw [Int.toNat_of_nonneg (by omega)]
    push_cast at this
    rw [this]; ring
  · rw [List.getElem?_map, List.getElem?_range (by omega)]
    simp only [Option.map_some, Option.some.injEq]
    have : (((z - lo).toNat : ℤ) : ℝ) = ((z - lo : ℤ) : ℝ) := by rw [Int.toNat_of_nonneg (by omega)]
    push_cast at this ⊢
    rw [this]; norm_num; ring

/-- C83: the first histogram shows every run and all values together, and every value lies in a bin; integers are in the
middle of theirs. -/
theorem first_hist_partial (kde : List ℝ → List (ℝ × ℝ)) (r : Round) (hr : r.kind = .hist)
    (hne : keep r.runs ≠ []) (hint : r.ints = true → ∀ v ∈ (keep r.runs).flatten, ∃ z : ℤ, v = z) :
    ∃ b, session kde (keep r.runs).length [r] {}
        = [.ok ((keep r.runs).map (Shape.bars · b) ++ [.bars (keep r.runs).flatten b])] ∧
      ∀ v ∈ (keep r.runs).flatten, InBins v b := by
  unfold session session plotRepr
  rw [hr]
  dsimp only
  rw [if_neg hne]
  have : colorsFit (keep r.runs).length
      (histKw r.ints (keep r.runs) (keep r.runs).length (withAlpha (keep r.runs).length {})).color = true := by
    simp only [histKw, withAlpha, Option.getD_none, colorsFit, decide_true]
  rw [this]
  refine ⟨_, rfl, ?_⟩
  intro v hv
  simp only [histKw, withAlpha, Option.getD_none, Option.getD_some]
  cases hi : r.ints with
  | false => simp [InBins]
  | true =>
    rw [if_pos rfl]
    obtain ⟨z, rfl⟩ := hint hi v hv
    have hz : z ∈ ((keep r.runs).flatten.map fun v => ⌊v⌋) := List.mem_map.2 ⟨_, hv, Int.floor_intCast z⟩
    exact intBins_mem _ _ z z (by constructor <;> linarith) ((foldl_min_le _ _).2 z hz) ((le_foldl_max _ _).2 z hz)

/-- C83, what fails: a second histogram of integers uses the bins of the first one, so new values may lie in none. -/
theorem second_hist_bins (kde : List ℝ → List (ℝ × ℝ)) (r r' : Round) (hr : r.kind = .hist) (hr' : r'.kind = .hist)
    (hint : r.ints = true) (hne : keep r.runs ≠ []) (hlen : (keep r'.runs).length = (keep r.runs).length) :
    ∃ b, (session kde (keep r.runs).length [r, r'] {})[1]?
        = some (.ok ((keep r'.runs).map (Shape.bars · b) ++ [.bars (keep r'.runs).flatten b])) ∧
      ∀ v : ℝ, (highest (keep r.runs).flatten : ℝ) + 0.5 ≤ v → ¬ InBins v b := by
  have hne' : keep r'.runs ≠ [] := by
    intro h
    rw [h, List.length_nil, eq_comm, List.length_eq_zero_iff] at hlen
    exact hne hlen
  have hfit : colorsFit (keep r.runs).length
      (histKw r.ints (keep r.runs) (keep r.runs).length (withAlpha (keep r.runs).length {})).color = true := by
    simp only [histKw, withAlpha, Option.getD_none, colorsFit, decide_true]
  refine ⟨intBins (lowest (keep r.runs).flatten) (highest (keep r.runs).flatten), ?_, ?_⟩
  · unfold session session
    simp only [List.getElem?_cons_succ, List.getElem?_cons_zero, Option.some.injEq]
    unfold plotRepr
    rw [hr, hr']
    dsimp only
    rw [if_neg hne', if_neg hne, hfit]
    simp only [Bool.not_true, Bool.false_eq_true, if_false, histKw, withAlpha, hint, if_true, Option.getD_none,
      Option.getD_some, colorsFit, hlen, decide_true]
  · rintro v hv ⟨i, a, c, -, hc, -, hvc⟩
    rw [List.getElem?_map] at hc
    rw [Option.map_eq_some_iff] at hc
    obtain ⟨j, hj, rfl⟩ := hc
    have hjlt := List.mem_range.1 (List.mem_of_getElem? hj)
    have h1 : (j : ℤ) < highest (keep r.runs).flatten + 2 - lowest (keep r.runs).flatten := by omega
    have h2 : (j : ℤ) + lowest (keep r.runs).flatten ≤ highest (keep r.runs).flatten + 1 := by omega
    have h3 : ((j : ℤ) : ℝ) + (lowest (keep r.runs).flatten : ℝ) ≤ highest (keep r.runs).flatten + 1 := by
      exact_mod_cast h2
    push_cast at h3
    norm_num at hv hvc
    linarith

/-- C83, what fails: the prior of a PyMC or Bambi model is only shown if the variable is named; without a name the first
observed variable is looked for among the priors. -/
theorem unnamed_prior_fails (free observed : List String) (h : ∀ o ∈ observed, o ∉ free) :
    ∃ e, shownVariable free observed "prior" none = .error e := by
  cases observed with
  | nil => exact ⟨_, rfl⟩
  | cons o os =>
    unfold shownVariable
    dsimp only
    rw [if_pos rfl, if_neg]
    · exact ⟨_, rfl⟩
    · exact h o (by simp)

/-- C83: otherwise the named variable is shown, or the first observed one. -/
theorem variable_shown (free observed : List String) :
    (∀ v ∈ free, observed ≠ [] → shownVariable free observed "prior" (some v) = .ok v) ∧
    (∀ v ∈ observed, shownVariable free observed "prior_predictive" (some v) = .ok v) ∧
    ∀ o os, observed = o :: os → shownVariable free observed "prior_predictive" none = .ok o := by
  refine ⟨?_, ?_, ?_⟩
  · intro v hv _
    simp [shownVariable, hv]
  · intro v hv
    simp [shownVariable, hv]
  · rintro o os rfl
    simp [shownVariable]

/-- a session: a curve of two runs, one of which has a missing value -/
example : LineKw {} ∧ keep [[some 1, some 2], [some 3, none]] = [[1, 2]] ∧
    keep [[some (1 : ℝ), some 2], [some 3, some 4]] = [[1, 2], [3, 4]] := by
  refine ⟨⟨rfl, rfl, rfl, by simp⟩, ?_, ?_⟩ <;> simp [keep]

example : ecdfCurve [3, 1] = [(1, 0), (3, 1 / 2)] := by
  norm_num [ecdfCurve, List.insertionSort, List.orderedInsert, List.mapIdx, List.mapIdx.go]

end Verif.Props
