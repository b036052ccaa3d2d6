import Verif.Model.Curves
import Verif.Props.Grids
import Verif.Props.Intervals
import Verif.Props.Censored

set_option linter.unusedSimpArgs false

/-!
# C81: curves drawn for discrete distributions, marks of censored ones
-/

namespace Verif.Props
open Verif MeasureTheory Verif.Spec Verif.Modifier Verif.Interval Verif.Curves

/-- the height of a step curve is that of the last point at or before the place -/
theorem step_at (pts : List (ℤ × ℝ)) (hs : pts.Pairwise fun p q => p.1 < q.1) (y : ℝ) (a z : ℤ × ℝ)
    (ha : pts.head? = some a) (hz : pts.getLast? = some z) (h1 : (a.1 : ℝ) ≤ y) (h2 : y < z.1) :
    ∃ p ∈ pts, stepPost pts y = some p.2 ∧ (p.1 : ℝ) ≤ y ∧ ∀ q ∈ pts, (q.1 : ℝ) ≤ y → q.1 ≤ p.1 := by
  induction pts generalizing a with
  | nil => simp at ha
  | cons c rest ih =>
    simp only [List.head?_cons, Option.some.injEq] at ha
    subst ha
    cases rest with
    | nil =>
      simp only [List.getLast?_singleton, Option.some.injEq] at hz
      subst hz
      linarith
    | cons d rest =>
      obtain ⟨c1, c2⟩ := c
      obtain ⟨d1, d2⟩ := d
      unfold stepPost
      rw [List.pairwise_cons] at hs
      by_cases h : y < d1
      · rw [if_pos ⟨h1, h⟩]
        refine ⟨(c1, c2), by simp, rfl, h1, ?_⟩
        intro q hq hqy
        rcases List.mem_cons.1 hq with rfl | hq
        · exact le_rfl
        · exfalso
          have : d1 ≤ q.1 := by
            rcases List.mem_cons.1 hq with rfl | hq'
            · exact le_rfl
            · exact ((List.pairwise_cons.1 hs.2).1 q hq').le
          have : (d1 : ℝ) ≤ q.1 := by exact_mod_cast this
          linarith
      · rw [if_neg (fun h' => h h'.2)]
        obtain ⟨p, hp, e, hpy, hmax⟩ := ih hs.2 (d1, d2) rfl
          (by rw [List.getLast?_cons_cons] at hz; exact hz) (not_lt.1 h)
        refine ⟨p, List.mem_cons_of_mem _ hp, e, hpy, ?_⟩
        intro q hq hqy
        rcases List.mem_cons.1 hq with rfl | hq
        · exact (hs.1 p hp).le
        · exact hmax q hq hqy

theorem withEnds_ok (g : List ℤ) (l u : ℤ) (hl : g.head? = some l) (hu : g.getLast? = some u) :
    withEnds g = .ok ((l - 1) :: g ++ [u + 1]) := by
  cases g with
  | nil => simp at hl
  | cons x xs =>
    simp only [List.head?_cons, Option.some.injEq] at hl
    subst hl
    rw [List.getLast?_eq_some_getLast (List.cons_ne_nil _ _), Option.some.injEq] at hu
    simp only [withEnds, hu]

/-- what is drawn over a sorted grid -/
theorem steps_drawn (b : Base) (f : ℝ → ℝ) (s : Support) (g : List ℤ) (hg : xvalsDiscrete b s none = .ok g)
    (hs : g.Pairwise (· < ·)) (l u : ℤ) (hl : g.head? = some l) (hu : g.getLast? = some u) :
    ∃ c, plotSteps b f s = .ok (c, (l : ℝ) - 0.1, (u : ℝ) + 0.1) ∧
      ∀ y : ℝ, ((l - 1 : ℤ) : ℝ) ≤ y → y < ((u + 1 : ℤ) : ℝ) →
        ∃ k : ℤ, (k = l - 1 ∨ k ∈ g) ∧ (k : ℝ) ≤ y ∧ c y = some (f k) ∧ ∀ m ∈ g, (m : ℝ) ≤ y → m ≤ k := by
  unfold plotSteps
  rw [hg]
  simp only [Except.ok_bind', withEnds_ok g l u hl hu, Except.pure_eq]
  have hlast : ((l - 1) :: g ++ [u + 1]).getLast! = u + 1 := by
    rw [List.getLast!_eq_getLast?_getD, List.getLast?_concat]; rfl
  have hhead : ((l - 1) :: g ++ [u + 1]).head! = l - 1 := rfl
  rw [hlast, hhead]
  refine ⟨_, by rw [sub_add_cancel, add_sub_cancel_right], ?_⟩
  intro y h1 h2
  have hle : ∀ x ∈ g, l ≤ x ∧ x ≤ u := by
    intro x hx
    constructor
    · cases g with
      | nil => simp at hx
      | cons a t =>
        simp only [List.head?_cons, Option.some.injEq] at hl
        subst hl
        rcases List.mem_cons.1 hx with rfl | hx
        · exact le_rfl
        · exact ((List.pairwise_cons.1 hs).1 x hx).le
    · obtain ⟨t, rfl⟩ := List.getLast?_eq_some_iff.1 hu
      rcases List.mem_append.1 hx with hx | hx
      · exact ((List.pairwise_append.1 hs).2.2 x hx u (by simp)).le
      · simp only [List.mem_singleton] at hx; exact hx.le
  obtain ⟨p, hp, e, hpy, hmax⟩ := step_at (((l - 1) :: g ++ [u + 1]).map fun k : ℤ => (k, f k))
    (by
      rw [List.pairwise_map, List.cons_append, List.pairwise_cons]
      refine ⟨?_, ?_⟩
      · intro a ha
        rcases List.mem_append.1 ha with ha | ha
        · have := (hle a ha).1; dsimp only; omega
        · simp only [List.mem_singleton] at ha
          have := (hle l (List.mem_of_head? hl)).2
          dsimp only; omega
      · rw [List.pairwise_append]
        refine ⟨hs, by simp, ?_⟩
        intro a ha c hc
        simp only [List.mem_singleton] at hc
        have := (hle a ha).2
        dsimp only; omega)
    y (l - 1, f ((l - 1 : ℤ) : ℝ)) (u + 1, f ((u + 1 : ℤ) : ℝ)) (by simp)
    (by rw [List.map_append, List.map_singleton, List.getLast?_concat]) h1 h2
  obtain ⟨k, hk, rfl⟩ := List.mem_map.1 hp
  refine ⟨k, ?_, hpy, e, ?_⟩
  · rw [List.cons_append, List.mem_cons, List.mem_append, List.mem_singleton] at hk
    rcases hk with h | h | h
    · exact .inl h
    · exact .inr h
    · exfalso
      subst h
      dsimp only at hpy
      linarith
  · intro m hm hmy
    exact hmax (m, f m) (List.mem_map.2 ⟨m, by simp [hm], rfl⟩) hmy

/-- cumulative probabilities of integer-valued laws only change at integers -/
theorem integer_Iic (b : Base) (hd : b.discrete = true) (k : ℤ) (y : ℝ) (h1 : (k : ℝ) ≤ y) (h2 : y < k + 1) :
    b.law.real (Set.Iic y) = b.law.real (Set.Iic (k : ℝ)) := by
  apply measureReal_congr
  filter_upwards [(b.discrete_law hd).1] with x hx
  obtain ⟨m, rfl⟩ := hx
  apply propext
  show (m : ℝ) ≤ y ↔ (m : ℝ) ≤ k
  constructor
  · intro h
    have : (m : ℝ) < k + 1 := by linarith
    have : m < k + 1 := by exact_mod_cast this
    exact_mod_cast (by omega : m ≤ k)
  · intro h; linarith

theorem grid_ends (l u : ℤ) (n : ℕ) (hlu : l ≤ u) (hr : u - l ≤ n) :
    (discreteXvals l u n).head? = some l ∧ (discreteXvals l u n).getLast? = some u := by
  unfold discreteXvals
  dsimp only
  rw [if_pos hr]
  obtain ⟨m, hm⟩ : ∃ m : ℕ, (u + 1 - l).toNat = m + 1 := ⟨(u - l).toNat, by omega⟩
  rw [hm]
  constructor
  · simp [List.range_succ_eq_map]
  · rw [List.range_succ, List.map_append, List.map_cons, List.map_nil, List.getLast?_append]
    simp
    omega

/-- C81: the steps drawn by `plot_cdf` and `plot_sf` for a discrete distribution are exactly P(X ≤ y) and P(X > y) at
every place of the figure, when the shown support has at most 201 values.

Partial: see `long_steps_fail` for longer supports. -/
theorem steps_partial (b : Base) (hd : b.discrete = true) (s : Support) (l u : ℤ)
    (hg : xvalsDiscrete b s none = .ok (discreteXvals l u 200)) (hlu : l ≤ u) (hr : u - l ≤ 200) :
    (Gives (plotCdf b s) fun r => r.2 = ((l : ℝ) - 0.1, (u : ℝ) + 0.1) ∧
      ∀ y, r.2.1 ≤ y → y ≤ r.2.2 → r.1 y = some (b.law.real (Set.Iic y))) ∧
    (Gives (plotSf b s) fun r => r.2 = ((l : ℝ) - 0.1, (u : ℝ) + 0.1) ∧
      ∀ y, r.2.1 ≤ y → y ≤ r.2.2 → r.1 y = some (b.law.real (Set.Ioi y))) := by
  obtain ⟨hl, hu⟩ := grid_ends l u 200 hlu hr
  obtain ⟨hs, hmem⟩ := xvals_small l u 200 hr
  have key : ∀ f : ℝ → ℝ, (∀ (k : ℤ) (y : ℝ), (k : ℝ) ≤ y → y < k + 1 → f y = f k) →
      Gives (plotSteps b f s) fun r => r.2 = ((l : ℝ) - 0.1, (u : ℝ) + 0.1) ∧
        ∀ y, r.2.1 ≤ y → y ≤ r.2.2 → r.1 y = some (f y) := by
    intro f hf
    obtain ⟨c, e, hc⟩ := steps_drawn b f s _ hg hs l u hl hu
    refine ⟨_, e, rfl, ?_⟩
    intro y h1 h2
    dsimp only at h1 h2 ⊢
    obtain ⟨k, hk, hky, hck, hmax⟩ := hc y (by push_cast; norm_num at h1 ⊢; linarith)
      (by push_cast; norm_num at h2 ⊢; linarith)
    rw [hck, hf k y hky]
    by_contra hlt
    have hlt : (k : ℝ) + 1 ≤ y := not_lt.1 hlt
    have hk1 : k + 1 ∈ discreteXvals l u 200 := by
      rw [hmem]
      have hy : y < u + 1 := by norm_num at h2 ⊢; linarith
      have : (k : ℝ) < u := by linarith
      have : k < u := by exact_mod_cast this
      rcases hk with rfl | hk
      · omega
      · rw [hmem] at hk; omega
    have := hmax (k + 1) hk1 (by push_cast; exact hlt)
    omega
  constructor
  · refine (key (fun x => b.cdf x) ?_).imp fun r h => ⟨h.1, h.2.1, ?_⟩
    · intro k y h1 h2
      simp only [b.cdf_coe]
      exact integer_Iic b hd k y h1 h2
    · intro y h1 h2; rw [h.2.2 y h1 h2, b.cdf_coe]
  · refine (key (sf b) ?_).imp fun r h => ⟨h.1, h.2.1, ?_⟩
    · intro k y h1 h2
      unfold sf
      simp only [b.cdf_coe]
      rw [integer_Iic b hd k y h1 h2]
    · intro y h1 h2; rw [h.2.2 y h1 h2, sf_tail]

theorem missing_value (l u : ℤ) (g : List ℤ) (hlen : (g.length : ℤ) ≤ u - l) : ∃ k, l ≤ k ∧ k ≤ u ∧ k ∉ g := by
  by_contra h
  push Not at h
  have hsub : Finset.Icc l u ⊆ g.toFinset := by
    intro k hk
    rw [Finset.mem_Icc] at hk
    rw [List.mem_toFinset]
    exact h k hk.1 hk.2
  have h1 := Finset.card_le_card hsub
  have h2 := g.toFinset_card_le
  rw [Int.card_Icc] at h1
  omega

/-- C81, what fails: when the shown support has more than 201 values, all of positive probability, the curve of `plot_cdf`
is too low at one of them, and that of `plot_sf` too high. -/
theorem long_steps_fail (b : Base) (s : Support) (l u : ℤ) (hg : xvalsDiscrete b s none = .ok (discreteXvals l u 200))
    (hr : 200 < u - l) (hcap : u - l ≤ int64Max) (hpos : ∀ k : ℤ, l ≤ k → k ≤ u → 0 < b.law.real {(k : ℝ)}) :
    ∃ k : ℤ, l ≤ k ∧ k ≤ u ∧
      (Gives (plotCdf b s) fun r => ∃ h, r.1 k = some h ∧ h < b.law.real (Set.Iic (k : ℝ))) ∧
      (Gives (plotSf b s) fun r => ∃ h, r.1 k = some h ∧ b.law.real (Set.Ioi (k : ℝ)) < h) := by
  obtain ⟨hlen, hs, hl, hu, hin⟩ := xvals_large_partial l u 200 (by norm_num) (by exact_mod_cast hr) hcap
  obtain ⟨k, hk1, hk2, hk⟩ := missing_value l u (discreteXvals l u 200) (by rw [hlen]; omega)
  have key : ∀ f : ℝ → ℝ, Gives (plotSteps b f s) fun r => ∃ m : ℤ, m < k ∧ r.1 k = some (f m) := by
    intro f
    obtain ⟨c, e, hc⟩ := steps_drawn b f s _ hg hs l (u + 1) hl hu
    refine ⟨_, e, ?_⟩
    obtain ⟨m, hm, hmk, hcm, -⟩ := hc k (by exact_mod_cast (by omega : l - 1 ≤ k))
      (by exact_mod_cast (by omega : k < u + 1 + 1))
    refine ⟨m, ?_, hcm⟩
    have hmk : m ≤ k := by exact_mod_cast hmk
    rcases hm with rfl | hm
    · omega
    · rcases eq_or_lt_of_le hmk with rfl | h
      · exact absurd hm hk
      · exact h
  have hlt : ∀ m : ℤ, m < k → b.law.real (Set.Iic (m : ℝ)) < b.law.real (Set.Iic (k : ℝ)) := by
    intro m hm
    have hmr : (m : ℝ) < k := by exact_mod_cast hm
    have h1 : b.law.real (Set.Iic (m : ℝ) ∪ {(k : ℝ)}) ≤ b.law.real (Set.Iic (k : ℝ)) := by
      refine measureReal_mono ?_ (measure_ne_top _ _)
      rintro x (hx | hx)
      · exact le_trans hx hmr.le
      · exact le_of_eq hx
    rw [measureReal_union (by
      rw [Set.disjoint_singleton_right]
      exact fun h => absurd h (not_le.2 hmr)) (measurableSet_singleton _)] at h1
    have := hpos k hk1 hk2
    linarith
  refine ⟨k, hk1, hk2, ?_, ?_⟩
  · refine (key (fun x => b.cdf x)).imp fun r h => ⟨h.1, ?_⟩
    obtain ⟨m, hm, e⟩ := h.2
    exact ⟨_, e, by rw [b.cdf_coe]; exact hlt m hm⟩
  · refine (key (sf b)).imp fun r h => ⟨h.1, ?_⟩
    obtain ⟨m, hm, e⟩ := h.2
    refine ⟨_, e, ?_⟩
    unfold sf
    rw [b.cdf_coe, ← Set.compl_Iic, probReal_compl_eq_one_sub measurableSet_Iic]
    have := hlt m hm
    linarith

/-- C81: the markers of `plot_pdf` for a discrete distribution are at the probabilities of the values of the grid. -/
theorem pmf_markers (b : Base) (hd : b.discrete = true) (s : Support) (g : List ℤ)
    (hg : xvalsDiscrete b s none = .ok g) :
    Gives (plotPmf b s) fun ms => ∀ k h, (k, h) ∈ ms ↔ k ∈ g ∧ h = b.law.real {(k : ℝ)} := by
  unfold plotPmf
  rw [hg]
  refine ⟨_, rfl, ?_⟩
  intro k h
  rw [List.mem_map]
  constructor
  · rintro ⟨m, hm, e⟩
    cases e
    exact ⟨hm, (b.discrete_law hd).2 _⟩
  · rintro ⟨hk, rfl⟩
    exact ⟨k, hk, by rw [(b.discrete_law hd).2]⟩

/-- C81: with the default support, the lower bound of a censored continuous distribution is marked when its point mass is
at least 0.0001; so is then the upper one. -/
theorem lower_mass_marked (b : Base) (l u : EReal) (L : ℝ) (hL : (censBounds b l u).1 = L)
    (hp : (censBounds b l u).1 ≤ (censBounds b l u).2) (hm : 0.0001 ≤ (censLaw b.law l u).real (Set.Iic L)) :
    censMarks b (censBounds b l u).1 (censBounds b l u).2 .restricted
      = .ok [(censBounds b l u).1, (censBounds b l u).2] := by
  have hU : (censBounds b l u).2 ≠ ⊥ := by
    intro h
    rw [h, hL] at hp
    exact absurd (le_bot_iff.1 hp) (EReal.coe_ne_bot _)
  have hq := (censored_ppf b l u hp (by rw [hL]; exact EReal.coe_ne_top _) hU 0.0001 (by norm_num) (by norm_num)).1 L
  unfold censMarks leftEnd
  simp only [Except.ok_bind', Except.pure_eq]
  rw [if_pos]
  rw [hL] at hq ⊢
  exact hq.2 hm

/-- C81, what fails: a distribution censored only from above shows no mark for its point mass, whatever finite range is
shown. -/
theorem upper_mass_unmarked (b : Base) (u : EReal) (hlo : b.lo = ⊥) (hU : (censBounds b ⊥ u).2 ≠ ⊥) (s : Support)
    (hs : s = .full ∨ s = .restricted ∨ ∃ a c, s = .pair a c ∧ a ≠ ⊥) :
    censMarks b (censBounds b ⊥ u).1 (censBounds b ⊥ u).2 s = .ok [] := by
  have h1 : (censBounds b ⊥ u).1 = ⊥ := by
    show max b.lo ⊥ = ⊥
    rw [hlo, max_self]
  obtain ⟨r, hr⟩ := ppf_real b (q := 0.0001) (by norm_num) (by norm_num)
  have hp : censPpf b ⊥ (censBounds b ⊥ u).2 0.0001 ≠ ⊥ := by
    unfold censPpf clip
    rw [hr, max_eq_left bot_le]
    intro h
    rcases min_eq_bot.1 h with h | h
    · exact hU h
    · exact EReal.coe_ne_bot _ h
  obtain ⟨m, hm, hne⟩ : ∃ m, leftEnd b (censBounds b ⊥ u).1 (censBounds b ⊥ u).2 s = .ok m ∧ m ≠ ⊥ := by
    rw [h1]
    rcases hs with rfl | rfl | ⟨a, c, rfl, ha⟩
    · exact ⟨_, by unfold leftEnd; rw [if_pos (.inr rfl)], hp⟩
    · exact ⟨_, rfl, hp⟩
    · exact ⟨a, rfl, ha⟩
  unfold censMarks
  rw [hm]
  simp only [Except.ok_bind', Except.pure_eq]
  rw [if_neg]
  rw [h1, le_bot_iff]
  exact hne

/-- C81, what fails: with the default support, an upper bound is not marked, whatever its point mass, when the mass at the
lower bound is below 0.0001. -/
theorem upper_mass_unmarked_small_lower (b : Base) (l u : EReal) (L : ℝ) (hL : (censBounds b l u).1 = L)
    (hp : (censBounds b l u).1 ≤ (censBounds b l u).2) (hm : (censLaw b.law l u).real (Set.Iic L) < 0.0001) :
    censMarks b (censBounds b l u).1 (censBounds b l u).2 .restricted = .ok [] := by
  have hU : (censBounds b l u).2 ≠ ⊥ := by
    intro h
    rw [h, hL] at hp
    exact absurd (le_bot_iff.1 hp) (EReal.coe_ne_bot _)
  have hq := (censored_ppf b l u hp (by rw [hL]; exact EReal.coe_ne_top _) hU 0.0001 (by norm_num) (by norm_num)).1 L
  unfold censMarks leftEnd
  simp only [Except.ok_bind', Except.pure_eq]
  rw [if_neg]
  rw [hL] at hq ⊢
  intro h
  exact absurd (hq.1 h) (not_le.2 hm)

/-- C81: a support that is neither a pair nor one of the two words is refused, for marks as for curves and markers -/
theorem unknown_support_refused (b : Base) (f : ℝ → ℝ) (l u : EReal) :
    censMarks b l u .other = .error .valueError ∧ plotSteps b f .other = .error .valueError ∧
      plotPmf b .other = .error .valueError := by
  refine ⟨rfl, ?_, ?_⟩
  · simp [plotSteps, xvalsDiscrete, finiteEndpoints]
  · simp [plotPmf, xvalsDiscrete, finiteEndpoints]

example : plotPmf (dice 6) .other = .error .valueError := (unknown_support_refused (dice 6) (fun _ => 0) 0 1).2.2

theorem pair_grid (b : Base) (l u : ℤ) (h0 : 0 ≤ l) (h1 : 0 ≤ u) :
    xvalsDiscrete b (.pair ((l : ℝ) : EReal) ((u : ℝ) : EReal)) none = .ok (discreteXvals l u 200) := by
  have h : ∀ n : ℤ, 0 ≤ n → pyInt ((n : ℝ) : EReal) = .ok n := by
    intro n hn
    have : (0 : ℝ) ≤ n := by exact_mod_cast hn
    unfold pyInt
    rw [if_neg (by simp), EReal.toReal_coe, if_pos this, Int.floor_intCast]
  unfold xvalsDiscrete finiteEndpoints
  simp only [Except.ok_bind', Except.pure_eq, h l h0, h u h1, Option.getD_none]

theorem dice_mass (n k : ℕ) (h : k ≤ n) : 0 < (dice n).law.real {(k : ℝ)} := by
  classical
  show 0 < (diceLaw n).real _
  rw [diceLaw_real]
  refine Finset.sum_pos' (fun i _ => by split_ifs <;> positivity) ⟨k, by simp; omega, ?_⟩
  simp
  positivity

/-- a die, and one with 501 values -/
example : xvalsDiscrete (dice 5) (.pair (((0 : ℤ) : ℝ) : EReal) (((5 : ℤ) : ℝ) : EReal)) none
    = .ok (discreteXvals 0 5 200) :=
  pair_grid _ _ _ (by norm_num) (by norm_num)

example : xvalsDiscrete (dice 500) (.pair (((0 : ℤ) : ℝ) : EReal) (((500 : ℤ) : ℝ) : EReal)) none
    = .ok (discreteXvals 0 500 200) ∧
    ∀ k : ℤ, 0 ≤ k → k ≤ 500 → 0 < (dice 500).law.real {(k : ℝ)} := by
  refine ⟨pair_grid _ _ _ (by norm_num) (by norm_num), ?_⟩
  intro k h0 h1
  lift k to ℕ using h0
  exact dice_mass 500 k (by omega)

/-- the same law with the real line as its support -/
noncomputable def loose (b : Base) : Base :=
  { b with lo := ⊥, hi := ⊤, in_support := by filter_upwards with y; exact ⟨bot_le, le_top⟩ }

/-- a uniform law on [-1, 1] cut at zero, from below and from above -/
example : ∃ L : ℝ, (censBounds (loose (unif (-1) 1 (by norm_num))) 0 ⊤).1 = L ∧
    0.0001 ≤ (censLaw (loose (unif (-1) 1 (by norm_num))).law 0 ⊤).real (Set.Iic L) := by
  have hb : censBounds (loose (unif (-1) 1 (by norm_num))) 0 ⊤ = (((0 : ℝ) : EReal), ⊤) := by
    show (max ⊥ (0 : EReal), min ⊤ ⊤) = _
    simp
  refine ⟨0, by rw [hb], ?_⟩
  rw [Base.censLaw_cut _ (by rw [hb]; exact le_top), Base.cens_Iic _ (by rw [hb]; exact le_top)
    (by rw [hb]; exact EReal.coe_ne_top _) (by rw [hb]; simp), hb, if_neg (lt_irrefl _), if_neg (by simp), Base.cdf_coe]
  show _ ≤ (unif (-1) 1 (by norm_num)).law.real _
  rw [unif_real _ _ _ _ measurableSet_Iic]
  have : Set.Iic (0 : ℝ) ∩ Set.Icc (-1) 1 = Set.Icc (-1) 0 := by
    ext y; simp only [Set.mem_inter_iff, Set.mem_Iic, Set.mem_Icc]
    constructor
    · rintro ⟨h, h', _⟩; exact ⟨h', h⟩
    · rintro ⟨h, h'⟩; exact ⟨h', h, by linarith⟩
  rw [this]
  norm_num

example : censMarks (loose (unif (-1) 1 (by norm_num))) (censBounds (loose (unif (-1) 1 (by norm_num))) ⊥ 0).1
    (censBounds (loose (unif (-1) 1 (by norm_num))) ⊥ 0).2 .full = .ok [] :=
  upper_mass_unmarked _ _ rfl (by show min ⊤ (0 : EReal) ≠ ⊥; simp) _ (.inl rfl)

end Verif.Props
