import Verif.Model.RouletteSession
import Verif.Props.Roulette
import Mathlib.Tactic

set_option linter.unusedSimpArgs false

/-!
# C84: sessions with the roulette
-/

namespace Verif.Props
open Verif Verif.Roulette

variable {D : Type}

/-! ## the sizes -/

/-- object, widgets and grid agree on the axis and on the number of rows and columns -/
structure Synced (s : State D) : Prop where
  xMin : s.xMin = s.wXMin
  xMax : s.xMax = s.wXMax
  rows : s.nrows = s.wRows ∧ s.grid.nrows = s.wRows
  cols : s.ncols = s.wCols ∧ s.grid.ncols = s.wCols
  two : 2 ≤ s.wCols

theorem bounded_two (n : ℕ) : 2 ≤ bounded n := by unfold bounded; omega

theorem bounded_id (n : ℕ) (h1 : 2 ≤ n) (h2 : n ≤ 100) : bounded n = n := by unfold bounded; omega

/-- the part of the state that a fit does not touch -/
def core (s : State D) : (ℝ × ℝ × ℕ × ℕ) × (ℝ × ℝ × ℕ × ℕ) × Grid × List String × String :=
  ((s.xMin, s.xMax, s.nrows, s.ncols), (s.wXMin, s.wXMax, s.wRows, s.wCols), s.grid, s.options, s.extra)

theorem leave_frame (env : Env D) (s : State D) :
    core (leave env s) = core s ∧ (leave env s).selected = s.selected ∧ (leave env s).boxNone = s.boxNone ∧
    (leave env s).boxCont = s.boxCont ∧ (leave env s).boxDisc = s.boxDisc ∧ (leave env s).repr = s.repr := by
  unfold leave
  cases weightsToPdf s.xMin s.xMax s.grid with
  | error e => exact ⟨rfl, rfl, rfl, rfl, rfl, rfl⟩
  | ok h =>
    dsimp only
    split
    · split
      · cases env.fit s.selected h.xs h.probs h.mean h.std s.xMin s.xMax s.extra with
        | error e => exact ⟨rfl, rfl, rfl, rfl, rfl, rfl⟩
        | ok r => cases r <;> exact ⟨rfl, rfl, rfl, rfl, rfl, rfl⟩
      · exact ⟨rfl, rfl, rfl, rfl, rfl, rfl⟩
    · exact ⟨rfl, rfl, rfl, rfl, rfl, rfl⟩

theorem select_frame (env : Env D) (n : List String) (s : State D) :
    core (select env n s) = core s ∧ (select env n s).selected = n ∧ (select env n s).boxNone = s.boxNone ∧
    (select env n s).boxCont = s.boxCont ∧ (select env n s).boxDisc = s.boxDisc ∧ (select env n s).repr = s.repr := by
  unfold select
  by_cases h : n = s.selected
  · rw [if_pos h]; exact ⟨rfl, h.symm, rfl, rfl, rfl, rfl⟩
  · rw [if_neg h]; exact leave_frame env { s with selected := n }

/-- whatever selecting families and unticking boxes preserve, a change of a box preserves -/
theorem handle_preserves (env : Env D) (P : State D → Prop) (hsel : ∀ n s, P s → P (select env n s))
    (h1 : ∀ s, P s → P { s with boxDisc := false }) (h2 : ∀ s, P s → P { s with boxCont := false }) :
    ∀ fuel s, P s → P (handle env fuel s)
  | 0, _, h => h
  | fuel + 1, s, h => by
    have ih := handle_preserves env P hsel h1 h2 fuel
    unfold handle
    by_cases hn : s.boxNone = true
    · rw [if_pos hn]
      dsimp only
      apply hsel
      have ha : P (if s.boxDisc = true then handle env fuel { s with boxDisc := false } else s) := by
        split
        · exact ih _ (h1 _ h)
        · exact h
      generalize (if s.boxDisc = true then handle env fuel { s with boxDisc := false } else s) = s1 at ha ⊢
      split
      · exact ih _ (h2 _ ha)
      · exact ha
    · rw [if_neg hn]
      exact hsel _ _ h

theorem synced_of_core (s t : State D) (h : core s = core t) (ht : Synced t) : Synced s := by
  simp only [core, Prod.mk.injEq] at h
  obtain ⟨⟨a1, a2, a3, a4⟩, ⟨b1, b2, b3, b4⟩, c, -, -⟩ := h
  obtain ⟨h1, h2, h3, h4, h5⟩ := ht
  constructor
  · rw [a1, b1, h1]
  · rw [a2, b2, h2]
  · rw [a3, b3, c]; exact h3
  · rw [a4, b4, c]; exact h4
  · rw [b4]; exact h5

theorem click_size (g : Grid) (p : Press) : (click g p).nrows = g.nrows ∧ (click g p).ncols = g.ncols := by
  unfold click
  split
  · dsimp only
    split <;> exact ⟨rfl, rfl⟩
  · exact ⟨rfl, rfl⟩

theorem updateGrid_synced (s : State D) (h : 2 ≤ s.wCols) : Synced (updateGrid s) :=
  ⟨rfl, rfl, ⟨rfl, rfl⟩, ⟨rfl, rfl⟩, h⟩

theorem act_synced (env : Env D) (s : State D) (a : Action) (h : Synced s) : Synced (act env s a) := by
  have hhandle : ∀ s : State D, Synced s → Synced (handle env 3 s) := fun s hs =>
    handle_preserves env Synced (fun n s hs => synced_of_core _ _ (select_frame env n s).1 hs)
      (fun _ h => ⟨h.1, h.2, h.3, h.4, h.5⟩) (fun _ h => ⟨h.1, h.2, h.3, h.4, h.5⟩) 3 s hs
  cases a with
  | click p =>
    refine synced_of_core _ _ (leave_frame env _).1 ?_
    obtain ⟨h1, h2, h3, h4, h5⟩ := h
    exact ⟨h1, h2, ⟨h3.1, (click_size _ p).1.trans h3.2⟩, ⟨h4.1, (click_size _ p).2.trans h4.2⟩, h5⟩
  | setXMin v =>
    dsimp only [act]
    split
    · exact h
    · split
      · exact updateGrid_synced _ h.two
      · exact updateGrid_synced _ h.two
  | setXMax v =>
    dsimp only [act]
    split
    · exact h
    · exact updateGrid_synced _ h.two
  | setRows n =>
    dsimp only [act]
    split
    · exact h
    · exact updateGrid_synced _ h.two
  | setCols n =>
    dsimp only [act]
    split
    · exact h
    · exact updateGrid_synced _ (bounded_two n)
  | setRepr r =>
    dsimp only [act]
    split
    · exact h
    · exact synced_of_core _ _ (leave_frame env _).1 ⟨h.1, h.2, h.3, h.4, h.5⟩
  | setExtra t =>
    dsimp only [act]
    split
    · exact h
    · exact synced_of_core _ _ (leave_frame env _).1 ⟨h.1, h.2, h.3, h.4, h.5⟩
  | choose n => exact synced_of_core _ _ (select_frame env n s).1 h
  | tick b =>
    cases b <;> exact hhandle _ ⟨h.1, h.2, h.3, h.4, h.5⟩

theorem acts_synced (env : Env D) (l : List Action) (s : State D) (h : Synced s) : Synced (acts env s l) := by
  induction l generalizing s with
  | nil => exact h
  | cons a l ih => exact ih _ (act_synced env s a h)

/-- C84: if the roulette is opened with 2 to 100 rows and columns, the object, the widgets and the grid agree on the axis
and the size after every session. -/
theorem session_synced_partial (env : Env D) (xMin xMax : ℝ) (nrows ncols : ℕ) (options defaults : List String)
    (extra : String) (h1 : 2 ≤ nrows ∧ nrows ≤ 100) (h2 : 2 ≤ ncols ∧ ncols ≤ 100) (l : List Action) :
    Synced (acts env (open' xMin xMax nrows ncols options defaults extra) l) := by
  apply acts_synced
  refine ⟨rfl, rfl, ⟨?_, ?_⟩, ⟨?_, ?_⟩, bounded_two _⟩
  · exact (bounded_id _ h1.1 h1.2).symm
  · exact (bounded_id _ h1.1 h1.2).symm
  · exact (bounded_id _ h2.1 h2.2).symm
  · exact (bounded_id _ h2.1 h2.2).symm

/-- C84, what fails: with more columns, changing the axis silently shrinks the grid. -/
theorem large_grid_shrinks (env : Env D) (xMin xMax v : ℝ) (nrows ncols : ℕ) (options defaults : List String)
    (extra : String) (h : 100 < ncols) (hv : v ≠ xMin) (hv' : v ≠ xMax) :
    (open' (D := D) xMin xMax nrows ncols options defaults extra).grid.ncols = ncols ∧
    (acts env (open' xMin xMax nrows ncols options defaults extra) [.setXMin v]).grid.ncols = 100 := by
  refine ⟨rfl, ?_⟩
  change (act env _ (.setXMin v)).grid.ncols = 100
  dsimp only [act]
  rw [if_neg (by exact hv)]
  rw [if_neg (by exact hv')]
  change bounded ncols = 100
  unfold bounded
  omega

/-! ## what the object reports -/

/-- the columns that hold chips -/
def piles (g : Grid) : List ℕ := (List.range g.ncols).filter fun c => g.weights c ≠ 0

/-- the number of chips -/
def chipCount (g : Grid) : ℤ := ((List.range g.ncols).map g.weights).sum

/-- the mean of `xs` with weights `ps`, and the sum of squares around it -/
noncomputable def wMean (xs ps : List ℝ) : ℝ := ((xs.zip ps).map fun vp => vp.2 * vp.1).sum
noncomputable def wVar (xs ps : List ℝ) : ℝ := ((xs.zip ps).map fun vp => vp.2 * (vp.1 - wMean xs ps) ^ 2).sum

/-- the attributes `inputs` and `dist` are those of the shown chips, axis, families and extra parameters -/
def Reports (env : Env D) (s : State D) : Prop :=
  ∃ i, s.inputs = some i ∧ i.xMin = s.wXMin ∧ i.xMax = s.wXMax ∧ i.nrows = s.grid.nrows ∧ i.ncols = s.grid.ncols ∧
    i.chips = chipCount s.grid ∧
    i.xs = (piles s.grid).map (fun c : ℕ => s.wXMin + ((c : ℝ) + 1 / 2) * ((s.wXMax - s.wXMin) / (s.grid.ncols - 1))) ∧
    i.probs = (piles s.grid).map (fun c : ℕ => (s.grid.weights c : ℝ) / chipCount s.grid) ∧
    (2 ≤ (piles s.grid).length ∧ s.selected ≠ [] → env.fit s.selected i.xs i.probs (wMean i.xs i.probs)
      (some (Real.sqrt (wVar i.xs i.probs))) s.wXMin s.wXMax s.extra = .ok s.dist) ∧
    (¬ (2 ≤ (piles s.grid).length ∧ s.selected ≠ []) → s.dist = none)

/-- the fit raises no error with these extra parameters -/
def NoError (env : Env D) (t : String) : Prop :=
  ∀ sel xs ps m sd lo hi, ∃ r, env.fit sel xs ps m sd lo hi t = .ok r

theorem used_piles (g : Grid) : Grid.used g = (piles g).map fun c => (c, g.weights c) := by
  unfold Grid.used piles Grid.counts
  rw [List.filter_map]
  rfl

theorem counts_sum (g : Grid) : (g.counts.map Prod.snd).sum = chipCount g := by
  unfold Grid.counts chipCount
  rw [List.map_map]
  rfl

theorem leave_reports (env : Env D) (s : State D) (hs : Synced s) (hg : GridOk s.grid 0)
    (hp : NoError env s.extra) : Reports env (leave env s) := by
  have h2 : 2 ≤ s.grid.ncols := by rw [hs.cols.2]; exact hs.two
  have key : ∃ h, weightsToPdf s.xMin s.xMax s.grid = .ok h ∧ h.columns = (piles s.grid).length ∧
      h.xs = (piles s.grid).map (fun c : ℕ => s.xMin + ((c : ℝ) + 1 / 2) * ((s.xMax - s.xMin) / (s.grid.ncols - 1))) ∧
      h.probs = (piles s.grid).map (fun c : ℕ => (s.grid.weights c : ℝ) / chipCount s.grid) ∧
      h.mean = wMean h.xs h.probs ∧ h.std = some (Real.sqrt (wVar h.xs h.probs)) := by
    by_cases h0 : ∃ c < s.grid.ncols, s.grid.weights c ≠ 0
    · obtain ⟨h, e, h3, -, h4, h5, -, -, h6, sd, h7, h8, h9⟩ :=
        roulette_histogram_partial s.xMin s.xMax s.grid h2 hg.lower h0
      refine ⟨h, e, ?_, ?_, ?_, h6, ?_⟩
      · rw [h3, used_piles, List.length_map]
      · rw [h4, used_piles, List.map_map]; rfl
      · rw [h5, used_piles, List.map_map, List.map_map]
        have : ((piles s.grid).map ((fun kv : ℕ × ℤ => (kv.2 : ℝ)) ∘ fun c => (c, s.grid.weights c))).sum
            = (chipCount s.grid : ℝ) := by
          have h10 := sum_filter_ne_zero s.grid.counts
          change ((Grid.used s.grid).map _).sum = _ at h10
          rw [used_piles, List.map_map, counts_sum] at h10
          exact h10
        rw [this]
        rfl
      · rw [h7, ← Real.sqrt_sq h8, h9]
        congr 2
        unfold wVar
        rw [h6]
        rfl
    · push Not at h0
      refine ⟨_, (roulette_degenerate s.xMin s.xMax s.grid).2 h2 h0, ?_⟩
      have hst : piles s.grid = [] := by
        unfold piles
        rw [List.filter_eq_nil_iff]
        intro c hc
        simp [h0 c (List.mem_range.1 hc)]
      rw [hst]
      simp [wMean, wVar]
  obtain ⟨h, e, h3, h4, h5, h6, h7⟩ := key
  obtain ⟨hcore, hsel, -, -, -, -⟩ := leave_frame env s
  simp only [core, Prod.mk.injEq] at hcore
  obtain ⟨⟨a1, a2, a3, a4⟩, ⟨b1, b2, b3, b4⟩, c, -, hext⟩ := hcore
  unfold Reports
  rw [b1, b2, c, hext, hsel]
  have hin : (leave env s).inputs = some ⟨h.xs, h.probs, (s.grid.counts.map Prod.snd).sum, s.xMin, s.xMax, s.nrows,
      s.ncols⟩ ∧ (h.columns > 1 ∧ s.selected ≠ [] →
        env.fit s.selected h.xs h.probs h.mean h.std s.xMin s.xMax s.extra = .ok (leave env s).dist) ∧
      (¬ (h.columns > 1 ∧ s.selected ≠ []) → (leave env s).dist = none) := by
    obtain ⟨r, hr⟩ := hp s.selected h.xs h.probs h.mean h.std s.xMin s.xMax
    unfold leave
    rw [e]
    dsimp only
    by_cases k1 : h.columns > 1
    · rw [if_pos k1]
      by_cases k2 : s.selected ≠ []
      · rw [if_pos k2, hr]
        cases r with
        | none => exact ⟨rfl, fun _ => rfl, fun h => absurd ⟨k1, k2⟩ h⟩
        | some d => exact ⟨rfl, fun _ => rfl, fun h => absurd ⟨k1, k2⟩ h⟩
      · rw [if_neg k2]
        exact ⟨rfl, fun h => absurd h.2 k2, fun _ => rfl⟩
    · rw [if_neg k1]
      exact ⟨rfl, fun h => absurd h.1 k1, fun _ => rfl⟩
  obtain ⟨hin, hd1, hd2⟩ := hin
  refine ⟨_, hin, hs.xMin, hs.xMax, ?_, ?_, counts_sum _, ?_, h5, ?_, ?_⟩
  · exact hs.rows.1.trans hs.rows.2.symm
  · exact hs.cols.1.trans hs.cols.2.symm
  · dsimp only; rw [h4, hs.xMin, hs.xMax]
  · intro k
    dsimp only
    rw [← h6, ← h7, ← hs.xMin, ← hs.xMax]
    exact hd1 ⟨by rw [h3]; exact k.1, k.2⟩
  · intro k
    exact hd2 (fun k' => k ⟨by rw [← h3]; exact k'.1, k'.2⟩)

/-- the action changes the axis or the size of the grid -/
def Resizes : Action → Prop
  | .setXMin _ | .setXMax _ | .setRows _ | .setCols _ => True
  | _ => False

/-- what has to hold before an action for the result to be reported: no negative chips, acceptable extra
parameters -/
structure Sound (env : Env D) (s : State D) : Prop where
  synced : Synced s
  chips : GridOk s.grid 0
  extra : NoError env s.extra

/-- the user does not click just under the grid and writes parameters that the families accept -/
def Careful (env : Env D) : Action → Prop
  | .click p => 0 < p.y ∨ p.y ≤ -1
  | .setExtra t => NoError env t
  | _ => True

theorem sound_of_core (env : Env D) (s t : State D) (h : core s = core t) (ht : Sound env t) : Sound env s := by
  refine ⟨synced_of_core _ _ h ht.synced, ?_, ?_⟩
  · simp only [core, Prod.mk.injEq] at h
    rw [h.2.2.1]; exact ht.chips
  · simp only [core, Prod.mk.injEq] at h
    rw [h.2.2.2.2]; exact ht.extra

theorem act_sound (env : Env D) (s : State D) (a : Action) (h : Sound env s) (ha : Careful env a) :
    Sound env (act env s a) := by
  refine ⟨act_synced env s a h.synced, ?_, ?_⟩
  · cases a with
    | click p =>
      have hc := (leave_frame env { s with grid := click s.grid p }).1
      simp only [core, Prod.mk.injEq] at hc
      change GridOk (leave env { s with grid := click s.grid p }).grid 0
      rw [hc.2.2.1]
      refine click_ok _ p 0 le_rfl (fun _ => ?_) (by norm_num) h.chips
      rcases ha with h | h
      · exact .inl h
      · exact .inr (not_lt.mpr h)
    | setXMin v =>
      dsimp only [act]
      split
      · exact h.chips
      · split <;> exact fresh_ok _ _ 0 le_rfl
    | setXMax v =>
      dsimp only [act]
      split
      · exact h.chips
      · exact fresh_ok _ _ 0 le_rfl
    | setRows v =>
      dsimp only [act]
      split
      · exact h.chips
      · exact fresh_ok _ _ 0 le_rfl
    | setCols v =>
      dsimp only [act]
      split
      · exact h.chips
      · exact fresh_ok _ _ 0 le_rfl
    | setRepr r =>
      dsimp only [act]
      split
      · exact h.chips
      · have hc := (leave_frame env { s with repr := r }).1
        simp only [core, Prod.mk.injEq] at hc
        rw [hc.2.2.1]; exact h.chips
    | setExtra t =>
      dsimp only [act]
      split
      · exact h.chips
      · have hc := (leave_frame env { s with extra := t }).1
        simp only [core, Prod.mk.injEq] at hc
        rw [hc.2.2.1]; exact h.chips
    | choose n =>
      have hc := (select_frame env n s).1
      simp only [core, Prod.mk.injEq] at hc
      change GridOk (select env n s).grid 0
      rw [hc.2.2.1]; exact h.chips
    | tick b =>
      have : ∀ s : State D, GridOk s.grid 0 → GridOk (handle env 3 s).grid 0 := fun s hs =>
        handle_preserves env (fun s => GridOk s.grid 0) (fun n s hs => by
          have hc := (select_frame env n s).1
          simp only [core, Prod.mk.injEq] at hc
          rw [hc.2.2.1]; exact hs) (fun _ h => h) (fun _ h => h) 3 s hs
      cases b <;> exact this _ h.chips
  · cases a with
    | click p =>
      have hc := (leave_frame env { s with grid := click s.grid p }).1
      simp only [core, Prod.mk.injEq] at hc
      change NoError env (leave env { s with grid := click s.grid p }).extra
      rw [hc.2.2.2.2]; exact h.extra
    | setXMin v =>
      dsimp only [act]
      split
      · exact h.extra
      · split <;> exact h.extra
    | setXMax v =>
      dsimp only [act]
      split <;> exact h.extra
    | setRows v =>
      dsimp only [act]
      split <;> exact h.extra
    | setCols v =>
      dsimp only [act]
      split <;> exact h.extra
    | setRepr r =>
      dsimp only [act]
      split
      · exact h.extra
      · have hc := (leave_frame env { s with repr := r }).1
        simp only [core, Prod.mk.injEq] at hc
        rw [hc.2.2.2.2]; exact h.extra
    | setExtra t =>
      dsimp only [act]
      split
      · exact h.extra
      · have hc := (leave_frame env { s with extra := t }).1
        simp only [core, Prod.mk.injEq] at hc
        rw [hc.2.2.2.2]; exact ha
    | choose n =>
      have hc := (select_frame env n s).1
      simp only [core, Prod.mk.injEq] at hc
      change NoError env (select env n s).extra
      rw [hc.2.2.2.2]; exact h.extra
    | tick b =>
      have : ∀ s : State D, NoError env s.extra → NoError env (handle env 3 s).extra :=
        fun s hs => handle_preserves env (fun s => NoError env s.extra) (fun n s hs => by
          have hc := (select_frame env n s).1
          simp only [core, Prod.mk.injEq] at hc
          rw [hc.2.2.2.2]; exact hs) (fun _ h => h) (fun _ h => h) 3 s hs
      cases b <;> exact this _ h.extra

theorem act_reports (env : Env D) (s : State D) (a : Action) (h : Sound env s) (ha : Careful env a) (hr : ¬ Resizes a)
    (hrep : (∃ p, a = .click p) ∨ Reports env s) : Reports env (act env s a) := by
  cases a with
  | click p =>
    refine leave_reports env _ ?_ ?_ h.extra
    · obtain ⟨h1, h2, h3, h4, h5⟩ := h.synced
      exact ⟨h1, h2, ⟨h3.1, (click_size _ p).1.trans h3.2⟩, ⟨h4.1, (click_size _ p).2.trans h4.2⟩, h5⟩
    · refine click_ok _ p 0 le_rfl (fun _ => ?_) (by norm_num) h.chips
      rcases ha with h | h
      · exact .inl h
      · exact .inr (not_lt.mpr h)
  | setXMin v => exact absurd trivial hr
  | setXMax v => exact absurd trivial hr
  | setRows v => exact absurd trivial hr
  | setCols v => exact absurd trivial hr
  | setRepr r =>
    have hrep : Reports env s := by
      rcases hrep with ⟨p, hp⟩ | hrep
      · cases hp
      · exact hrep
    dsimp only [act]
    split
    · exact hrep
    · have := h.synced
      exact leave_reports env _ ⟨this.1, this.2, this.3, this.4, this.5⟩ h.chips h.extra
  | setExtra t =>
    have hrep : Reports env s := by
      rcases hrep with ⟨p, hp⟩ | hrep
      · cases hp
      · exact hrep
    dsimp only [act]
    split
    · exact hrep
    · have := h.synced
      exact leave_reports env _ ⟨this.1, this.2, this.3, this.4, this.5⟩ h.chips ha
  | choose n =>
    have hrep : Reports env s := by
      rcases hrep with ⟨p, hp⟩ | hrep
      · cases hp
      · exact hrep
    change Reports env (select env n s)
    unfold select
    split
    · exact hrep
    · have := h.synced
      exact leave_reports env _ ⟨this.1, this.2, this.3, this.4, this.5⟩ h.chips h.extra
  | tick b =>
    have hrep' : Reports env s := by
      rcases hrep with ⟨p, hp⟩ | hrep
      · cases hp
      · exact hrep
    have : ∀ s : State D, Sound env s ∧ Reports env s → Sound env (handle env 3 s) ∧ Reports env (handle env 3 s) :=
      fun s hs => handle_preserves env (fun s => Sound env s ∧ Reports env s) (fun n s hs => by
        refine ⟨sound_of_core env _ _ (select_frame env n s).1 hs.1, ?_⟩
        unfold select
        split
        · exact hs.2
        · have := hs.1.synced
          exact leave_reports env _ ⟨this.1, this.2, this.3, this.4, this.5⟩ hs.1.chips hs.1.extra)
        (fun s hs => ⟨sound_of_core env _ s rfl hs.1, hs.2⟩) (fun s hs => ⟨sound_of_core env _ s rfl hs.1, hs.2⟩) 3 s hs
    cases b
    · exact (this { s with boxNone := !s.boxNone } ⟨sound_of_core env _ s rfl h, hrep'⟩).2
    · exact (this { s with boxCont := !s.boxCont } ⟨sound_of_core env _ s rfl h, hrep'⟩).2
    · exact (this { s with boxDisc := !s.boxDisc } ⟨sound_of_core env _ s rfl h, hrep'⟩).2

/-- C84: at any time after a click, as long as the axis and the size are not changed since, `inputs` and `dist` are those
of the chips, families and parameters that are shown.

Partial: clicks just under the grid, parameters with which a fit raises an error and changes of the axis or the size are excluded (see the next
theorems). -/
theorem session_reports_partial (env : Env D) (xMin xMax : ℝ) (nrows ncols : ℕ) (options defaults : List String)
    (extra : String) (h1 : 2 ≤ nrows ∧ nrows ≤ 100) (h2 : 2 ≤ ncols ∧ ncols ≤ 100)
    (hx : NoError env extra) (before after : List Action) (p : Press)
    (hc : ∀ a ∈ before ++ .click p :: after, Careful env a) (ha : ∀ a ∈ after, ¬ Resizes a) :
    Reports env (acts env (open' xMin xMax nrows ncols options defaults extra) (before ++ .click p :: after)) := by
  have main : ∀ (l : List Action) (s : State D), Sound env s → (∀ a ∈ l, Careful env a) → Sound env (acts env s l) := by
    intro l
    induction l with
    | nil => exact fun s h _ => h
    | cons a l ih =>
      intro s h hl
      exact ih _ (act_sound env s a h (hl a (by simp))) (fun b hb => hl b (by simp [hb]))
  have main' : ∀ (l : List Action) (s : State D), Sound env s → Reports env s → (∀ a ∈ l, Careful env a) →
      (∀ a ∈ l, ¬ Resizes a) → Reports env (acts env s l) := by
    intro l
    induction l with
    | nil => exact fun s _ h _ _ => h
    | cons a l ih =>
      intro s h hr hl hl'
      exact ih _ (act_sound env s a h (hl a (by simp)))
        (act_reports env s a h (hl a (by simp)) (hl' a (by simp)) (.inr hr)) (fun b hb => hl b (by simp [hb]))
        (fun b hb => hl' b (by simp [hb]))
  have h0 : Sound env (open' (D := D) xMin xMax nrows ncols options defaults extra) :=
    ⟨session_synced_partial env xMin xMax nrows ncols options defaults extra h1 h2 [], fresh_ok _ _ 0 le_rfl, hx⟩
  unfold acts
  rw [List.foldl_append, List.foldl_cons]
  have hb := main before _ h0 (fun a ha => hc a (by simp [ha]))
  have hcp := hc (.click p) (by simp)
  refine main' after _ (act_sound env _ _ hb hcp) (act_reports env _ _ hb hcp (by simp [Resizes]) (.inl ⟨p, rfl⟩))
    (fun a ha => hc a (by simp [ha])) ha

/-- C84, what fails: a change of the axis or of the size removes all chips and the curve, `dist` and `inputs` stay. -/
theorem resize_keeps_dist (env : Env D) (s : State D) (v : ℝ) (hv : v ≠ s.wXMax) :
    (act env s (.setXMax v)).dist = s.dist ∧ (act env s (.setXMax v)).inputs = s.inputs ∧
    (act env s (.setXMax v)).panel = .empty ∧ piles (act env s (.setXMax v)).grid = [] := by
  dsimp only [act]
  rw [if_neg hv]
  refine ⟨rfl, rfl, rfl, ?_⟩
  unfold piles updateGrid fresh
  simp

/-- … so the attributes no longer describe what is shown -/
theorem resize_not_reported (env : Env D) (s : State D) (v : ℝ) (hv : v ≠ s.wXMax)
    (hd : s.dist.isSome = true) : ¬ Reports env (act env s (.setXMax v)) := by
  obtain ⟨h1, -, -, h4⟩ := resize_keeps_dist env s v hv
  rintro ⟨i, -, -, -, -, -, -, -, -, -, h⟩
  rw [h1, h4] at h
  rw [h (by simp)] at hd
  simp at hd

theorem pile_columns (s : State D) (h : Synced s) (hg : GridOk s.grid 0) (hc : 2 ≤ (piles s.grid).length) :
    ∃ hh, weightsToPdf s.xMin s.xMax s.grid = .ok hh ∧ hh.columns > 1 := by
  have h2 : 2 ≤ s.grid.ncols := by rw [h.cols.2]; exact h.two
  have h0 : ∃ c < s.grid.ncols, s.grid.weights c ≠ 0 := by
    have : piles s.grid ≠ [] := by intro h; rw [h] at hc; simp at hc
    obtain ⟨c, hc⟩ := List.exists_mem_of_ne_nil _ this
    unfold piles at hc
    rw [List.mem_filter] at hc
    exact ⟨c, List.mem_range.1 hc.1, by simpa using hc.2⟩
  obtain ⟨hh, e, h3, -⟩ := roulette_histogram_partial s.xMin s.xMax s.grid h2 hg.lower h0
  refine ⟨hh, e, ?_⟩
  rw [h3, used_piles, List.length_map]
  omega

/-- C84, what fails: if no family is selected any more, `dist` is empty but the curve stays on the axes. -/
theorem deselect_keeps_curve (env : Env D) (s : State D) (h : Synced s) (hg : GridOk s.grid 0) (hsel : s.selected ≠ [])
    (hc : 2 ≤ (piles s.grid).length) :
    (act env s (.choose [])).dist = none ∧ (act env s (.choose [])).panel = s.panel := by
  obtain ⟨hh, e, h1⟩ := pile_columns s h hg hc
  change (select env [] s).dist = none ∧ (select env [] s).panel = s.panel
  unfold select
  rw [if_neg (Ne.symm hsel)]
  unfold leave
  simp [e, h1]

/-- C84, what fails: if the fit raises an error, as for two conflicting parametrisations among the extra parameters, the
curve disappears, but `dist` and `inputs` stay those of the previous chips. -/
theorem failed_fit_stale (env : Env D) (s : State D) (p : Press) (h : Synced s) (hg : GridOk (click s.grid p) 0)
    (hsel : s.selected ≠ []) (hc : 2 ≤ (piles (click s.grid p)).length)
    (hf : ∀ xs ps m sd, ∃ e, env.fit s.selected xs ps m sd s.xMin s.xMax s.extra = .error e) :
    (act env s (.click p)).grid = click s.grid p ∧ (act env s (.click p)).dist = s.dist ∧
    (act env s (.click p)).inputs = s.inputs ∧ (act env s (.click p)).panel = .empty := by
  have hs : Synced { s with grid := click s.grid p } := by
    obtain ⟨h1, h2, h3, h4, h5⟩ := h
    exact ⟨h1, h2, ⟨h3.1, (click_size _ p).1.trans h3.2⟩, ⟨h4.1, (click_size _ p).2.trans h4.2⟩, h5⟩
  obtain ⟨hh, e, h1⟩ := pile_columns { s with grid := click s.grid p } hs hg hc
  obtain ⟨err, he⟩ := hf hh.xs hh.probs hh.mean hh.std
  dsimp only [act]
  unfold leave
  simp only [e, h1, if_true, hsel, ne_eq, not_false_eq_true, he]
  trivial

/-- C84: the axis has positive or negative length after `x_min` was changed; but it may be reduced to a point through
`x_max`. -/
theorem axis_length (env : Env D) (s : State D) (v : ℝ) :
    (v ≠ s.wXMin → (act env s (.setXMin v)).xMin = v ∧ (act env s (.setXMin v)).xMax ≠ v) ∧
    (s.wXMin ≠ s.wXMax →
      (act env s (.setXMax s.wXMin)).xMax = s.wXMin ∧ (act env s (.setXMax s.wXMin)).xMin = s.wXMin) := by
  constructor
  · intro h
    dsimp only [act]
    rw [if_neg h]
    by_cases h' : v = s.wXMax
    · rw [if_pos (by exact h')]
      refine ⟨rfl, ?_⟩
      change v + 1 ≠ v
      simp
    · rw [if_neg (by exact h')]
      exact ⟨rfl, fun h => h' h.symm⟩
  · intro h
    dsimp only [act]
    rw [if_neg h]
    exact ⟨rfl, rfl⟩

/-! ## the boxes -/

/-- the families among the options that the boxes stand for -/
def boxed (env : Env D) (s : State D) : List String :=
  if s.boxNone then []
  else (if s.boxCont then env.continuous.filter (· ∈ s.options) else [])
    ++ if s.boxDisc then env.discrete.filter (· ∈ s.options) else []

theorem handle_spec (env : Env D) (k : ℕ) (s : State D) :
    (handle env (k + 3) s).selected = boxed env s ∧ (handle env (k + 3) s).boxNone = s.boxNone ∧
    (handle env (k + 3) s).boxCont = (s.boxCont && !s.boxNone) ∧
    (handle env (k + 3) s).boxDisc = (s.boxDisc && !s.boxNone) ∧ core (handle env (k + 3) s) = core s := by
  have none0 : ∀ (j : ℕ) (s : State D), s.boxNone = true → s.boxDisc = false → s.boxCont = false →
      handle env (j + 1) s = select env [] s := by
    intro j s h1 h2 h3
    unfold handle
    simp [h1, h2, h3]
  have key : ∀ (j : ℕ) (s : State D), s.boxNone = true → s.boxDisc = false →
      (handle env (j + 2) s).boxCont = false ∧ (handle env (j + 2) s).boxDisc = false ∧
      (handle env (j + 2) s).boxNone = true ∧ core (handle env (j + 2) s) = core s := by
    intro j s h1 h2
    rw [handle, if_pos h1]
    dsimp only
    rw [if_neg (by simp [h2] : ¬ s.boxDisc = true)]
    obtain ⟨a1, a2, a3, a4, a5, a6⟩ := select_frame env []
      (if s.boxCont = true then handle env (j + 1) { s with boxCont := false } else s)
    rw [a1, a3, a4, a5]
    by_cases h3 : s.boxCont = true
    · rw [if_pos h3, none0 j { s with boxCont := false } h1 h2 rfl]
      obtain ⟨b1, b2, b3, b4, b5, b6⟩ := select_frame env [] { s with boxCont := false }
      exact ⟨b4, b5.trans h2, b3.trans h1, b1⟩
    · rw [if_neg h3]
      exact ⟨by simpa using h3, h2, h1, rfl⟩
  by_cases h1 : s.boxNone = true
  · have hb : boxed env s = [] := by simp [boxed, h1]
    rw [hb, handle, if_pos h1]
    dsimp only
    have hs1 : ∃ s1, (if s.boxDisc = true then handle env (k + 2) { s with boxDisc := false } else s) = s1 ∧
        s1.boxDisc = false ∧ s1.boxNone = true ∧ core s1 = core s := by
      by_cases h2 : s.boxDisc = true
      · rw [if_pos h2]
        obtain ⟨b1, b2, b3, b4⟩ := key k { s with boxDisc := false } h1 rfl
        exact ⟨_, rfl, b2, b3, b4⟩
      · rw [if_neg h2]
        exact ⟨_, rfl, by simpa using h2, h1, rfl⟩
    obtain ⟨s1, e1, d1, n1, c1⟩ := hs1
    rw [e1]
    have hs2 : ∃ s2, (if s1.boxCont = true then handle env (k + 2) { s1 with boxCont := false } else s1) = s2 ∧
        s2.boxDisc = false ∧ s2.boxNone = true ∧ s2.boxCont = false ∧ core s2 = core s := by
      by_cases h2 : s1.boxCont = true
      · rw [if_pos h2]
        obtain ⟨b1, b2, b3, b4⟩ := key k { s1 with boxCont := false } n1 d1
        exact ⟨_, rfl, b2, b3, b1, b4.trans c1⟩
      · rw [if_neg h2]
        exact ⟨_, rfl, d1, n1, by simpa using h2, c1⟩
    obtain ⟨s2, e2, d2, n2, k2, c2⟩ := hs2
    rw [e2]
    obtain ⟨a1, a2, a3, a4, a5, a6⟩ := select_frame env [] s2
    exact ⟨a2, a3.trans (n2.trans h1.symm), by rw [a4, k2, h1]; simp, by rw [a5, d2, h1]; simp, a1.trans c2⟩
  · have h1' : s.boxNone = false := by simpa using h1
    rw [handle]
    simp only [h1', Bool.false_eq_true, if_false, boxed, Bool.not_false, Bool.and_true]
    obtain ⟨a1, a2, a3, a4, a5, a6⟩ := select_frame env
      ((if s.boxCont = true then env.continuous.filter (· ∈ s.options) else []) ++
        if s.boxDisc = true then env.discrete.filter (· ∈ s.options) else []) s
    exact ⟨a2, a3.trans h1', a4, a5, a1⟩

/-- C84: whichever box is ticked or unticked, in any order, afterwards the selected families are those the boxes stand for;
with "None" ticked the other boxes are unticked and nothing is selected. -/
theorem boxes_select (env : Env D) (s : State D) (b : Box) :
    (act env s (.tick b)).selected = boxed env (act env s (.tick b)) ∧
    ((act env s (.tick b)).boxNone = true →
      (act env s (.tick b)).boxCont = false ∧ (act env s (.tick b)).boxDisc = false) ∧
    (act env s (.tick b)).boxNone = (match b with | .none => !s.boxNone | _ => s.boxNone) := by
  have main : ∀ s : State D, (handle env 3 s).selected = boxed env (handle env 3 s) ∧
      ((handle env 3 s).boxNone = true → (handle env 3 s).boxCont = false ∧ (handle env 3 s).boxDisc = false) ∧
      (handle env 3 s).boxNone = s.boxNone := by
    intro s
    obtain ⟨a1, a2, a3, a4, a5⟩ := handle_spec env 0 s
    simp only [Nat.zero_add] at a1 a2 a3 a4 a5
    simp only [core, Prod.mk.injEq] at a5
    refine ⟨?_, ?_, a2⟩
    · rw [a1]
      unfold boxed
      rw [a2, a3, a4, a5.2.2.2.1]
      by_cases h : s.boxNone = true
      · simp [h]
      · simp [h]
    · intro h
      rw [a2] at h
      rw [a3, a4, h]
      simp
  cases b <;> exact main _

/-- an environment in which the fit returns the number of families, and a session in it -/
def demoEnv : Env ℕ := ⟨fun sel _ _ _ _ _ _ _ => .ok (some sel.length), ["Normal"], ["Poisson"]⟩

example : (∀ a ∈ [Action.click ⟨true, 1 / 2, 3 / 2⟩, .choose ["Normal"], .tick .disc], Careful demoEnv a ∧ ¬ Resizes a) ∧
    NoError demoEnv "" := by
  refine ⟨?_, fun _ _ _ _ _ _ _ => ⟨_, rfl⟩⟩
  intro a ha
  simp only [List.mem_cons, List.not_mem_nil, or_false] at ha
  rcases ha with rfl | rfl | rfl
  · exact ⟨.inl (by norm_num), fun h => h⟩
  · exact ⟨trivial, fun h => h⟩
  · exact ⟨trivial, fun h => h⟩

end Verif.Props
