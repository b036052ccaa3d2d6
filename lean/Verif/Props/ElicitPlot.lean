import Verif.Lemmas.ElicitPlot

/-!
# C105: the plots made by the elicitation functions
-/

namespace Verif.Props
open Verif Verif.Spec Verif.ElicitPlot

variable {C : Type}

/-! ## Examples -/

/-- a standard normal, roughly -/
noncomputable def shownNormal : PointInterval.Shown :=
  ⟨fun l => l, fun p => (-1 - p ^ 2, 1 + p ^ 2), fun p => (-1 - p ^ 2, 1 + p ^ 2), 0⟩

noncomputable def normalDist : Dist := ⟨false, "Normal", shownNormal⟩
noncomputable def poissonDist : Dist := ⟨true, "Poisson", shownNormal⟩

noncomputable def env0 : Env String := ⟨⟨"hdi", 0.94⟩, true, List.length⟩

/-- two empty axes, the second active -/
def twoAxes : World String := ⟨[[], []], some 1⟩

example : World.Fine twoAxes := by intro a h; simp [twoAxes] at h; subst h; simp [twoAxes]

example : Proper [Setting.color "red", .baseline false, .style "alpha"] :=
  ⟨by simp [Setting.name], by simp⟩

/-! ## maxent and quartile -/

/-- the curves drawn by a call on the density or mass function: one, in the colour of the line -/
theorem main_curve (d : Dist) (b : Bool) (c : Colour C) : colours .curve (mainLines d b c) = [c] := by
  unfold mainLines colours
  cases d.discrete <;> cases b <;> simp <;> split_ifs <;> simp

theorem main_baseline (d : Dist) (b : Bool) (c : Colour C) :
    colours .baseline (mainLines d b c) = if b then [.grey] else [] := by
  unfold mainLines colours
  cases d.discrete <;> cases b <;> simp <;> split_ifs <;> simp

theorem main_bounds (d : Dist) (b : Bool) (c : Colour C) : colours .bounds (mainLines d b c) = [] := by
  unfold mainLines colours
  cases d.discrete <;> cases b <;> simp <;> split_ifs <;> simp

private theorem marks_none (k : What) (hk : k ≠ .interval) (hk' : k ≠ .point) (ms : List PointInterval.Mark) :
    colours (C := C) k (ms.map markLine) = [] := by
  unfold colours
  rw [List.map_eq_nil_iff, List.filter_eq_nil_iff]
  intro l hl
  obtain ⟨m, -, rfl⟩ := List.mem_map.1 hl
  cases m <;> simp [markLine, Ne.symm hk, Ne.symm hk']

private theorem colours_append (k : What) (a b : List (Line C)) : colours k (a ++ b) = colours k a ++ colours k b := by
  simp [colours]

/-- `maxent` and `quartile` that return with a plot: everything is on one axes, which is the one returned — the one in
`plot_kwargs`, else the active one, else a new one; there is one curve, in the colour asked for; a baseline unless it was
turned off; one set of points for the bounds or quartiles. -/
theorem maxent_plot_shows (e : Env C) (d : Dist) (p : Option Bool) (kw : List (Setting C)) (ax : Option ℕ)
    (w w' : World C) (a : ℕ) (hw : World.Fine w) (hp : Proper kw)
    (hax : ∀ b, Setting.ax (some b) ∈ kw → b < w.axes.length)
    (h : elicitPlot e d p (some kw) ax w = (w', .ok (some a))) :
    ((∀ b, Setting.ax (some b) ∈ kw → a = b) ∧ ((∀ b, Setting.ax (some b) ∉ kw) → a = place w none)) ∧
    ∃ ls, AddedOn w w' a ls ∧
      (∃ c, colours .curve ls = [c] ∧ ∀ c', Setting.color c' ∈ kw → c = .given c') ∧
      (Setting.baseline false ∈ kw → colours .baseline ls = []) ∧
      (Setting.baseline false ∉ kw → colours .baseline ls = [.grey]) ∧
      (colours .bounds ls).length = 1 := by
  have ho := options_ax kw hp
  have hax' : ∀ b, (options kw).ax = some b → Setting.ax (some b) ∈ kw := by
    intro b hb
    by_contra hn
    by_cases hex : ∃ a, Setting.ax a ∈ kw
    · obtain ⟨a, ha⟩ := hex
      have := ho.1 a ha
      rw [hb] at this
      subst this
      exact hn ha
    · have := ho.2 (fun a ha => hex ⟨a, ha⟩)
      rw [hb] at this; cases this
  obtain ⟨ha, ms, l, hadd, -, hms⟩ :=
    elicit_ok e d p (some kw) ax w w' a hw (fun b hb => hax b (hax' b hb)) h
  simp only [Option.getD_some] at *
  have hms' : ∀ k, k ≠ What.interval → k ≠ What.point → colours k ms = [] := by
    intro k h1 h2
    split_ifs at hms
    · obtain ⟨m, -, rfl⟩ := hms
      exact marks_none k h1 h2 m
    · subst hms; rfl
  refine ⟨⟨?_, ?_⟩, _, hadd, ⟨curveColour e (options kw) (w.linesOf (place w (options kw).ax)),
    ?_, ?_⟩, ?_, ?_, ?_⟩
  · intro b hb
    rw [ha, ho.1 _ hb]; rfl
  · intro hn
    have : (options kw).ax = none := by
      cases hc : (options kw).ax with
      | none => rfl
      | some b => exact absurd (hax' b hc) (hn b)
    rw [ha, this]
  · rw [colours_append, colours_append, main_curve, hms' _ (by decide) (by decide)]
    rfl
  · intro c' hc'
    simp [curveColour, (options_color kw hp).1 c' hc']
  · intro hb
    rw [colours_append, colours_append, main_baseline, hms' _ (by decide) (by decide)]
    have : (options kw).baseline = false := by
      rw [← Bool.not_eq_true, options_baseline kw hp]; exact fun h => h hb
    simp [this, colours]
  · intro hb
    rw [colours_append, colours_append, main_baseline, hms' _ (by decide) (by decide)]
    have : (options kw).baseline = true := (options_baseline kw hp).2 hb
    simp [this, colours]
  · rw [colours_append, colours_append, main_bounds, hms' _ (by decide) (by decide)]
    rfl

example : ∃ w', elicitPlot env0 normalDist none (some [.ax (some 0), .color "red"]) none twoAxes = (w', .ok (some 0)) ∧
    w'.axes = [[⟨.baseline, .grey⟩, ⟨.curve, .given "red"⟩, ⟨.bounds, .given "red"⟩], []] := by
  refine ⟨_, rfl, ?_⟩
  simp [plotPdf, options, Opts.set, Opts.default, getAx, labelCheck, addBounds, wantsInterval, mainLines, twoAxes,
    World.add, World.linesOf, normalDist, curveColour]

/-- a call without options always makes its plot -/
theorem maxent_default_plot (e : Env C) (d : Dist) (p : Option Bool) (hp : p.getD e.showPlot = true) (ax : Option ℕ)
    (w : World C) (hw : World.Fine w) :
    ∃ w' c, elicitPlot e d p none ax w = (w', .ok (some (place w none))) ∧
      AddedOn w w' (place w none)
        (if d.discrete then mainLines d true c ++ [⟨.bounds, .grey⟩]
         else [⟨.baseline, .grey⟩, ⟨.curve, c⟩, ⟨.bounds, c⟩]) := by
  have hne : mainLines d true (Colour.cycle (e.pick ((getAx none w).2.linesOf (place w none)))) ≠ ([] : List (Line C)) := by
    unfold mainLines; split_ifs <;> simp
  have hm : ∃ w', elicitPlot e d p none ax w = (w', .ok (some (place w none))) := by
    unfold elicitPlot
    simp only [hp, if_true, Option.getD_none]
    have ho : options ([] : List (Setting C)) = Opts.default := rfl
    rw [ho, plotPdf_default]
    simp only [addBounds, wantsInterval, ho]
    have hpl : place w none < (getAx none w).2.axes.length := by
      have := (getAx_added none w hw (by simp)).exist
      rwa [getAx_place] at this
    rw [linesOf_add_same _ _ _ hpl]
    simp only [Opts.default, Bool.false_eq_true, if_false]
    rw [reverse_get _ _ _ (by simpa [List.length_pos_iff] using hne)]
    obtain ⟨x, hx⟩ : ∃ x, (mainLines d true (Colour.cycle (e.pick ((getAx none w).2.linesOf (place w none))))).reverse[1 - 1]?
        = some x := by
      rw [List.getElem?_eq_getElem (by simpa [List.length_pos_iff] using hne)]
      exact ⟨_, rfl⟩
    rw [hx]
    exact ⟨_, rfl⟩
  obtain ⟨w', h⟩ := hm
  refine ⟨w', curveColour e Opts.default (w.linesOf (place w none)), h, ?_⟩
  obtain ⟨-, ms, l, hadd, ⟨l', hl', hll⟩, hms⟩ := elicit_ok e d p none ax w w' _ hw (by simp [options, Opts.default]) h
  have ho : options ([] : List (Setting C)) = Opts.default := rfl
  simp only [Option.getD_none, ho] at hadd hl' hms
  simp only [Opts.default, Bool.false_eq_true, if_false] at hms hl' hadd
  subst hms hll
  rw [reverse_get _ _ _ (by unfold mainLines; split_ifs <;> simp)] at hl'
  have e1 : (curveColour e Opts.default (w.linesOf (place w none))) = curveColour e ⟨.none, false, none, none,
      some "restricted", true, .str "legend", none, none⟩ (w.linesOf (place w none)) := rfl
  rw [← e1] at hadd hl'
  cases hd : d.discrete
  · simp [mainLines, hd] at hl' hadd
    subst hl'
    simpa using hadd
  · simp only [if_true]
    have : l'.colour = .grey := by
      simp [mainLines, hd] at hl'
      rw [← hl']
    rw [this] at hadd
    simpa using hadd

/-- not so for the argument `ax`: with other axes active nothing is ever drawn on the axes that were passed -/
theorem maxent_ax_not_used (e : Env C) (d : Dist) (p : Option Bool) (kw : List (Setting C)) (hp : Proper kw)
    (hkw : ∀ a, Setting.ax a ∉ kw) (w : World C) (a b : ℕ) (hactive : w.active = some a) (hb : b ≠ a) :
    (elicitPlot e d p (some kw) (some b) w).1.linesOf b = w.linesOf b := by
  apply elicit_elsewhere
  simp only [Option.getD_some, (options_ax kw hp).2 hkw]
  simpa [place, hactive] using hb

/-- the plot is there, on the other axes -/
example : ∃ w', elicitPlot env0 normalDist none none (some 0) twoAxes = (w', .ok (some 1)) ∧
    w'.axes = [[], [⟨.baseline, .grey⟩, ⟨.curve, .cycle 0⟩, ⟨.bounds, .cycle 0⟩]] := by
  refine ⟨_, rfl, ?_⟩
  simp [plotPdf, options, Opts.default, getAx, labelCheck, addBounds, wantsInterval, mainLines, twoAxes, env0,
    World.add, World.linesOf, normalDist, curveColour]

/-- the colour of the points at the bounds, in general: the last line, or the fourth last with intervals -/
private theorem bounds_from (e : Env C) (d : Dist) (p : Option Bool) (kw : List (Setting C)) (ax : Option ℕ)
    (w w' : World C) (a : ℕ) (hw : World.Fine w) (hax : ∀ b, (options kw).ax = some b → b < w.axes.length)
    (h : elicitPlot e d p (some kw) ax w = (w', .ok (some a))) (hpi : (options kw).pointinterval = false) :
    ∃ c l, AddedOn w w' a (mainLines d (options kw).baseline c ++ [⟨.bounds, l⟩]) ∧
      ∃ l', (mainLines d (options kw).baseline c).getLast? = some l' ∧ l = l'.colour := by
  obtain ⟨ha, ms, l, hadd, ⟨l', hl', hl⟩, hms⟩ := elicit_ok e d p (some kw) ax w w' a hw hax h
  simp only [Option.getD_some, hpi] at *
  simp only [Bool.false_eq_true, if_false] at hms hl'
  subst hms
  simp only [List.append_nil] at hadd hl'
  refine ⟨_, l, hadd, l', ?_, hl⟩
  have hlen : 0 < (mainLines d (options kw).baseline
      (curveColour e (options kw) (w.linesOf (place w (options kw).ax)))).length := by
    unfold mainLines; simp only; split_ifs <;> simp
  rw [reverse_get _ _ _ (by simpa using hlen)] at hl'
  rw [List.getLast?_eq_head?_reverse, List.head?_eq_getElem?]
  exact hl'

/-- without intervals the points at the bounds of a continuous distribution have the colour of its curve -/
theorem bounds_colour_continuous (e : Env C) (d : Dist) (p : Option Bool) (kw : List (Setting C)) (ax : Option ℕ)
    (w w' : World C) (a : ℕ) (hw : World.Fine w) (hp : Proper kw) (hax : ∀ b, Setting.ax b ∉ kw)
    (h : elicitPlot e d p (some kw) ax w = (w', .ok (some a))) (hd : d.discrete = false)
    (hpi : Setting.pointinterval true ∉ kw) :
    ∃ ls, AddedOn w w' a ls ∧ colours .bounds ls = colours .curve ls := by
  obtain ⟨c, l, hadd, l', hl', hl⟩ := bounds_from e d p kw ax w w' a hw
    (by rw [(options_ax kw hp).2 hax]; simp) h
    (by rw [← Bool.not_eq_true, options_pointinterval kw hp]; exact hpi)
  refine ⟨_, hadd, ?_⟩
  rw [colours_append, colours_append, main_curve, main_bounds]
  simp only [mainLines, hd] at hl'
  subst hl
  cases hb : (options kw).baseline <;> simp [hb] at hl' <;> subst hl' <;> simp [colours]

/-- of a discrete distribution they are grey, in the colour of the baseline, whatever colour was asked for -/
theorem bounds_colour_discrete (e : Env C) (d : Dist) (p : Option Bool) (kw : List (Setting C)) (ax : Option ℕ)
    (w w' : World C) (a : ℕ) (hw : World.Fine w) (hp : Proper kw) (hax : ∀ b, Setting.ax b ∉ kw)
    (h : elicitPlot e d p (some kw) ax w = (w', .ok (some a))) (hd : d.discrete = true)
    (hpi : Setting.pointinterval true ∉ kw) :
    ∃ ls, AddedOn w w' a ls ∧
      (Setting.baseline false ∈ kw → colours .bounds ls = colours .curve ls) ∧
      (Setting.baseline false ∉ kw → colours .bounds ls = [.grey]) := by
  obtain ⟨c, l, hadd, l', hl', hl⟩ := bounds_from e d p kw ax w w' a hw
    (by rw [(options_ax kw hp).2 hax]; simp) h
    (by rw [← Bool.not_eq_true, options_pointinterval kw hp]; exact hpi)
  refine ⟨_, hadd, ?_⟩
  rw [colours_append, colours_append, main_curve, main_bounds]
  simp only [mainLines, hd] at hl'
  subst hl
  refine ⟨fun hb => ?_, fun hb => ?_⟩
  · have hb' : (options kw).baseline = false := by
      rw [← Bool.not_eq_true, options_baseline kw hp]; exact fun h => h hb
    by_cases hc : d.cls = "Categorical" ∨ d.cls = "Bernoulli" <;> simp [hb', hc] at hl' <;> subst hl' <;> simp [colours]
  · have hb' : (options kw).baseline = true := (options_baseline kw hp).2 hb
    simp [hb'] at hl'
    subst hl'
    simp [colours]

example : ∃ w', elicitPlot env0 poissonDist none (some [.color "red"]) none twoAxes = (w', .ok (some 1)) ∧
    w'.axes = [[], [⟨.curve, .given "red"⟩, ⟨.markers, .given "red"⟩, ⟨.baseline, .grey⟩, ⟨.bounds, .grey⟩]] := by
  refine ⟨_, rfl, ?_⟩
  simp [plotPdf, options, Opts.set, Opts.default, getAx, labelCheck, addBounds, wantsInterval, mainLines, twoAxes,
    World.add, World.linesOf, poissonDist, curveColour]

/-- with the default intervals, or two levels, the points of a continuous distribution have the colour of its curve as long
as no interval is empty or passes through the end of a circle -/
theorem bounds_colour_intervals (e : Env C) (d : Dist) (p : Option Bool) (kw : List (Setting C)) (ax : Option ℕ)
    (w w' : World C) (a : ℕ) (hw : World.Fine w) (hp : Proper kw) (hax : ∀ b, Setting.ax b ∉ kw)
    (h : elicitPlot e d p (some kw) ax w = (w', .ok (some a))) (hd : d.discrete = false)
    (hpi : Setting.pointinterval true ∈ kw)
    (hk : (options kw).interval.getD e.rc.kind = "hdi" ∨ (options kw).interval.getD e.rc.kind = "eti")
    (hl : (options kw).levels = none ∨ ∃ x y, (options kw).levels = some [x, y])
    (h1 : ∀ q, (d.shown.hdi q).1 < (d.shown.hdi q).2) (h2 : ∀ q, (d.shown.eti q).1 < (d.shown.eti q).2) :
    ∃ ls, AddedOn w w' a ls ∧ colours .bounds ls = colours .curve ls := by
  obtain ⟨ha, ms, l, hadd, ⟨l', hl', hll⟩, hms⟩ := elicit_ok e d p (some kw) ax w w' a hw
    (by simp only [Option.getD_some]; rw [(options_ax kw hp).2 hax]; simp) h
  have hpt := (options_pointinterval kw hp).2 hpi
  simp only [Option.getD_some, hpt, if_true] at *
  obtain ⟨m, hm, rfl⟩ := hms
  obtain ⟨x, y, z, h3, -⟩ := three_marks (C := C) d.shown e.rc _ _ hk hl h1 h2 m hm
  rw [h3] at hadd hl'
  refine ⟨_, hadd, ?_⟩
  simp only [mainLines, hd] at hl' ⊢
  rw [reverse_get _ _ _ (by simp)] at hl'
  subst hll
  cases hb : (options kw).baseline <;> simp [hb] at hl' <;> subst hl' <;> simp [colours]

/-- with one level they take the colour of the baseline -/
theorem bounds_colour_one_level (e : Env C) (d : Dist) (p : Option Bool) (kw : List (Setting C)) (ax : Option ℕ)
    (w w' : World C) (a : ℕ) (hw : World.Fine w) (hp : Proper kw) (hax : ∀ b, Setting.ax b ∉ kw)
    (h : elicitPlot e d p (some kw) ax w = (w', .ok (some a))) (hd : d.discrete = false)
    (hpi : Setting.pointinterval true ∈ kw) (hbase : Setting.baseline false ∉ kw)
    (hk : (options kw).interval.getD e.rc.kind = "hdi" ∨ (options kw).interval.getD e.rc.kind = "eti")
    (q : ℝ) (hl : Setting.levels (some [q]) ∈ kw)
    (h1 : (d.shown.hdi q).1 < (d.shown.hdi q).2) (h2 : (d.shown.eti q).1 < (d.shown.eti q).2) :
    ∃ ls, AddedOn w w' a ls ∧ colours .bounds ls = [.grey] := by
  obtain ⟨ha, ms, l, hadd, ⟨l', hl', hll⟩, hms⟩ := elicit_ok e d p (some kw) ax w w' a hw
    (by simp only [Option.getD_some]; rw [(options_ax kw hp).2 hax]; simp) h
  have hpt := (options_pointinterval kw hp).2 hpi
  have hbb := (options_baseline kw hp).2 hbase
  have hlv : (options kw).levels = some [q] :=
    options_mem Opts.levels "levels" opt_levels (.levels (some [q])) _ rfl (fun _ => rfl) kw _ hp.nodup hl
  simp only [Option.getD_some, hpt, if_true] at *
  obtain ⟨m, hm, rfl⟩ := hms
  have hm' : m.map (markLine (C := C)) = [⟨.interval, .black⟩, ⟨.point, .white⟩] := by
    unfold PointInterval.pointInterval PointInterval.values at hm
    have hq : (options kw).interval.getD e.rc.kind ≠ "quantiles" := by rcases hk with h | h <;> simp [h]
    simp only [hq, if_false, hlv] at hm
    rcases hk with hk | hk <;>
    simp [hk, Except.bind, Except.map, PointInterval.draw, PointInterval.subInterval, h1, h2] at hm <;>
    subst hm <;> simp [markLine]
  rw [hm'] at hadd hl'
  refine ⟨_, hadd, ?_⟩
  simp only [mainLines, hd, hbb] at hl' ⊢
  rw [reverse_get _ _ _ (by simp)] at hl'
  subst hll
  simp at hl'
  subst hl'
  simp [colours]

example : (∀ q, (shownNormal.hdi q).1 < (shownNormal.hdi q).2) ∧ ∀ q, (shownNormal.eti q).1 < (shownNormal.eti q).2 := by
  constructor <;> intro q <;> simp only [shownNormal] <;> nlinarith [sq_nonneg q]

example : ∃ w' r, elicitPlot env0 normalDist none (some [.color "red", .pointinterval true, .levels (some [0.5])]) none
    twoAxes = (w', .ok r) ∧ w'.axes = [[], [⟨.baseline, .grey⟩, ⟨.curve, .given "red"⟩, ⟨.interval, .black⟩,
      ⟨.point, .white⟩, ⟨.bounds, .grey⟩]] := by
  have h : (-1 : ℝ) - 0.5 ^ 2 < 1 + 0.5 ^ 2 := by norm_num
  simp [elicitPlot, plotPdf, options, Opts.set, Opts.default, getAx, labelCheck, addBounds, wantsInterval, mainLines,
    twoAxes, World.add, World.linesOf, normalDist, curveColour, env0, PointInterval.pointInterval, PointInterval.values,
    Except.bind, Except.map, shownNormal, PointInterval.draw, PointInterval.subInterval, h, markLine]

/-- with one level and no baseline, on new axes, the call fails after drawing -/
theorem one_level_fails (e : Env C) (d : Dist) (p : Option Bool) (hp : p.getD e.showPlot = true) (ax : Option ℕ)
    (w : World C) (hw : w.active = none) (hd : d.discrete = false) (q : ℝ)
    (hk : e.rc.kind = "hdi" ∨ e.rc.kind = "eti")
    (h1 : (d.shown.hdi q).1 < (d.shown.hdi q).2) (h2 : (d.shown.eti q).1 < (d.shown.eti q).2) :
    (elicitPlot e d p (some [.pointinterval true, .levels (some [q]), .baseline false]) ax w).2 = .error .indexError := by
  have hm : ∃ m, PointInterval.pointInterval d.shown e.rc none (some [q]) false = .ok m ∧
      m.map (markLine (C := C)) = [⟨.interval, .black⟩, ⟨.point, .white⟩] := by
    unfold PointInterval.pointInterval PointInterval.values
    have hq : e.rc.kind ≠ "quantiles" := by rcases hk with h | h <;> simp [h]
    simp only [Option.getD_none, hq, if_false]
    rcases hk with hk | hk <;>
    simp [hk, Except.bind, Except.map, PointInterval.draw, PointInterval.subInterval, h1, h2, markLine]
  obtain ⟨m, hm, hml⟩ := hm
  unfold elicitPlot
  simp only [hp, if_true, Option.getD_some]
  simp [plotPdf, options, Opts.set, Opts.default, getAx, hw, labelCheck, hm, addBounds, wantsInterval, hml, mainLines, hd,
    World.add, World.linesOf, Except.map]

/-! ## mle and combine -/

private theorem mleLoop_default (e : Env C) (ds : List Dist) : ∀ (w : World C) (ax : Option ℕ), World.Fine w → ds ≠ [] →
    ∃ w' ls, mleLoop e none ds ax w = (w', .ok (some (place w none))) ∧ AddedOn w w' (place w none) ls ∧
      (colours .curve ls).length = ds.length := by
  induction ds with
  | nil => intro w ax _ h; exact absurd rfl h
  | cons d ds ih =>
    intro w ax hw _
    have ho : positional (C := C) none = Opts.default := rfl
    unfold mleLoop
    rw [ho, plotPdf_default]
    simp only
    set w1 := (getAx none w).2.add (place w none)
      (mainLines d true (Colour.cycle (e.pick ((getAx none w).2.linesOf (place w none))))) with hw1
    have hadd : AddedOn w w1 (place w none)
        ([] ++ mainLines d true (Colour.cycle (e.pick ((getAx none w).2.linesOf (place w none))))) := by
      have := getAx_added none w hw (by simp)
      rw [getAx_place] at this
      exact added_add this
    have hact : w1.active = some (place w none) := by
      rw [hw1, add_active, getAx_now _ _ rfl]
    have hp1 : place w1 none = place w none := by simp [place, hact]
    by_cases hds : ds = []
    · subst hds
      exact ⟨w1, _, rfl, hadd, by simp [main_curve]⟩
    · have hfine : World.Fine w1 := by
        intro a ha
        rw [hact] at ha
        cases ha
        exact hadd.exist
      obtain ⟨w', ls, h1, h2, h3⟩ := ih w1 (some (place w none)) hfine hds
      rw [hp1] at h1 h2
      exact ⟨w', _, h1, added_trans hadd h2, by simp [colours_append, main_curve, h3]⟩

/-- `mle` and `combine` without options: one curve for every distribution among the first ones that could be fitted, all on
the active axes, or on one that is made; the argument `ax` is returned only if nothing was drawn. -/
theorem mle_default_plot (e : Env C) (hs : e.showPlot = true) (ranked : List (Option Dist)) (n : ℕ) (ax : Option ℕ)
    (w : World C) (hw : World.Fine w) :
    let chosen := (ranked.take n).filterMap id
    (chosen = [] → mlePlot e ranked n none ax w = (w, .ok ax)) ∧
    (chosen ≠ [] → ∃ w' ls, mlePlot e ranked n none ax w = (w', .ok (some (place w none))) ∧
      AddedOn w w' (place w none) ls ∧ (colours .curve ls).length = chosen.length) := by
  intro chosen
  unfold mlePlot
  simp only [hs, if_true]
  exact ⟨fun h => by show mleLoop e none chosen ax w = _; rw [h]; rfl, fun h => mleLoop_default e chosen w ax hw h⟩

/-- the keywords of `plot_pdf` are no pieces of "mdvsk" -/
theorem names_no_letters (s : Setting C) (h : ∀ n, s ≠ .style n) : ¬ s.name.toList <:+: letters := by
  cases s
  case style n => exact absurd rfl (h n)
  all_goals (simp only [Setting.name, letters]; decide)

/-- with options they fail: any keyword of `plot_pdf`, and any other that is no piece of "mdvsk", is a ValueError, and
nothing is drawn anywhere -/
theorem mle_options_fail (e : Env C) (hs : e.showPlot = true) (ranked : List (Option Dist)) (n : ℕ)
    (hc : (ranked.take n).filterMap id ≠ []) (kw : List (Setting C)) (s : Setting C) (hk : s ∈ kw)
    (hn : ¬ s.name.toList <:+: letters) (ax : Option ℕ) (w : World C) :
    (mlePlot e ranked n (some kw) ax w).2 = .error .valueError ∧
    ∀ b, (mlePlot e ranked n (some kw) ax w).1.linesOf b = w.linesOf b := by
  obtain ⟨d, ds, hd⟩ := List.exists_cons_of_ne_nil hc
  have hkey : keyCheck (kw.map Setting.name) = .error .valueError := by
    unfold keyCheck
    rw [if_pos]
    rw [List.any_eq_true]
    exact ⟨s.name, List.mem_map_of_mem hk, by simpa using hn⟩
  have hq : plotPdf e d (positional (some kw)) w = ((getAx none w).2, .error .valueError) := by
    unfold plotPdf positional
    simp [Opts.default, labelCheck, hkey]
  have hm : mlePlot e ranked n (some kw) ax w = ((getAx none w).2, .error .valueError) := by
    unfold mlePlot
    simp only [hs, if_true]
    rw [hd]
    unfold mleLoop
    rw [hq]
  rw [hm]
  refine ⟨rfl, fun b => ?_⟩
  unfold getAx
  cases h : w.active with
  | some a => rfl
  | none =>
    simp only [World.linesOf, List.getD]
    rcases lt_trichotomy b w.axes.length with h1 | h1 | h1
    · rw [List.getElem?_append_left h1]
    · subst h1; simp
    · rw [List.getElem?_eq_none (by simp; omega), List.getElem?_eq_none (by omega)]

example : (mlePlot env0 [none, some normalDist] 2 (some [.color "red"]) none twoAxes).2 = .error .valueError :=
  (mle_options_fail env0 rfl _ _ (by simp) _ (.color "red") (by simp) (names_no_letters _ (by simp)) _ _).1

example : mlePlot env0 [none, some normalDist] 1 none (some 0) twoAxes = (twoAxes, .ok (some 0)) :=
  (mle_default_plot env0 rfl [none, some normalDist] 1 (some 0) twoAxes
    (by intro a h; simp [twoAxes] at h; subst h; simp [twoAxes])).1 rfl

/-- `combine` has the same plot and the same fault -/
theorem combine_plot (e : Env C) (hs : e.showPlot = true) (ranked : List (Option Dist)) (n : ℕ)
    (hc : (ranked.take n).filterMap id ≠ []) (ax : Option ℕ) (w : World C) (hw : World.Fine w) :
    (∃ w' ls, combinePlot e ranked n none ax w = (w', .ok (some (place w none))) ∧ AddedOn w w' (place w none) ls ∧
      (colours .curve ls).length = ((ranked.take n).filterMap id).length) ∧
    ∀ (kw : List (Setting C)) (s : Setting C), s ∈ kw → (∀ m, s ≠ .style m) →
      (combinePlot e ranked n (some kw) ax w).2 = .error .valueError :=
  ⟨(mle_default_plot e hs ranked n ax w hw).2 hc, fun kw s hk hn =>
    (mle_options_fail e hs ranked n hc kw s hk (names_no_letters s hn) ax w).1⟩

/-! ## match_moments and match_quantiles -/

private theorem no_ax {kw : List (Setting C)} (h : ∀ a, Setting.ax a ∉ kw) (hp : Proper kw) :
    kw.any (fun s => s.name = "ax") = false := by
  rw [List.any_eq_false]
  intro s hs
  simp only [decide_eq_true_eq]
  intro hn
  cases s <;> simp [Setting.name] at hn
  case ax a => exact h a hs
  case style n => exact hp.styles n hs (by simp [hn])

/-- the options of the second curve differ from those of the first by the axes only -/
private theorem cons_ax (ax : Option ℕ) (kw : List (Setting C)) (hp : Proper kw) (h : ∀ a, Setting.ax a ∉ kw) :
    (options (.ax ax :: kw)).ax = ax := by
  have hp' : Proper (Setting.ax ax :: kw) := by
    refine ⟨?_, ?_⟩
    · rw [List.map_cons, List.nodup_cons]
      refine ⟨?_, hp.nodup⟩
      intro hm
      obtain ⟨s, hs, hn⟩ := List.mem_map.1 hm
      have := no_ax h hp
      rw [List.any_eq_false] at this
      exact this s hs (decide_eq_true hn)
    · intro n hn
      simp at hn
      exact hp.styles n hn
  exact (options_ax _ hp').1 ax (by simp)

/-- `from_dist` a distribution: both curves are on the axes returned, which are the active ones or new ones; the argument
`ax` has no effect. -/
theorem match_plot_dist (e : Env C) (d t : Dist) (p : Option Bool) (kw : List (Setting C)) (hp : Proper kw)
    (hkw : ∀ a, Setting.ax a ∉ kw) (w w' : World C) (hw : World.Fine w) (r : Option ℕ) (ax : Option ℕ)
    (h : matchPlot e (some d) t p (some kw) ax w = (w', .ok (some r))) :
    r = some (place w none) ∧ (∃ ls, AddedOn w w' (place w none) ls ∧ (colours .curve ls).length = 2) ∧
    ∀ ax', matchPlot e (some d) t p (some kw) ax' w = matchPlot e (some d) t p (some kw) ax w := by
  suffices hs : r = some (place w none) ∧ (∃ ls, AddedOn w w' (place w none) ls ∧ (colours .curve ls).length = 2) from
    ⟨hs.1, hs.2, fun _ => rfl⟩
  unfold matchPlot at h
  simp only [Option.getD_some] at h
  split_ifs at h
  · rcases hq : plotPdf e d (options kw) w with ⟨w1, x⟩
    rw [hq] at h
    cases x with
    | error err => simp [Except.map] at h
    | ok a =>
      simp only [Except.map] at h
      have ho := (options_ax kw hp).2 hkw
      obtain ⟨ha, -, ms, hadd, hms⟩ := plotPdf_ok e d _ w w1 a hw (by simp [ho]) hq
      rw [ho] at ha
      unfold plotPdfOn at h
      rw [no_ax hkw hp] at h
      simp only [Bool.false_eq_true, if_false] at h
      rcases hq2 : plotPdf e t (options (.ax (some a) :: kw)) w1 with ⟨w2, y⟩
      rw [hq2] at h
      cases y with
      | error err => simp at h
      | ok b =>
        simp only [Prod.mk.injEq, Except.ok.injEq, Option.some.injEq] at h
        obtain ⟨rfl, rfl⟩ := h
        have hc := cons_ax (some a) kw hp hkw
        have hf : World.Fine w1 := by
          have := fine_plotPdf e d (options kw) w hw
          rwa [hq] at this
        obtain ⟨hb, -, ms', hadd', hms'⟩ := plotPdf_ok e t _ w1 w2 b hf
          (by rw [hc]; intro c hc'; cases hc'; exact hadd.exist) hq2
        rw [hc] at hb
        have hb : b = a := hb
        subst hb
        rw [← ha]
        refine ⟨rfl, _, added_trans hadd hadd', ?_⟩
        have z : colours What.curve ms = [] := by
          split_ifs at hms
          · obtain ⟨m, -, rfl⟩ := hms
            exact marks_none _ (by decide) (by decide) m
          · subst hms; rfl
        have z' : colours What.curve ms' = [] := by
          split_ifs at hms'
          · obtain ⟨m, -, rfl⟩ := hms'
            exact marks_none _ (by decide) (by decide) m
          · subst hms'; rfl
        simp [colours_append, main_curve, z, z']
  · simp at h

/-- so axes that were passed get nothing while others are active -/
theorem match_ax_not_used (e : Env C) (d t : Dist) (p : Option Bool) (kw : List (Setting C)) (hp : Proper kw)
    (hkw : ∀ a, Setting.ax a ∉ kw) (w w' : World C) (hw : World.Fine w) (r : Option ℕ) (a b : ℕ)
    (hactive : w.active = some a) (hb : b ≠ a)
    (h : matchPlot e (some d) t p (some kw) (some b) w = (w', .ok (some r))) :
    r = some a ∧ w'.linesOf b = w.linesOf b := by
  obtain ⟨h1, ⟨ls, h2, -⟩, -⟩ := match_plot_dist e d t p kw hp hkw w w' hw r (some b) h
  have hpl : place w none = a := by simp [place, hactive]
  rw [hpl] at h1 h2
  exact ⟨h1, h2.elsewhere b hb⟩

/-- `from_dist` an array: the one curve is on the axes given; without axes it is on the active ones or on new ones, and
`None` is returned in their place. -/
theorem match_plot_array (e : Env C) (t : Dist) (p : Option Bool) (kw : List (Setting C)) (hp : Proper kw)
    (hkw : ∀ a, Setting.ax a ∉ kw) (w w' : World C) (hw : World.Fine w) (ax : Option ℕ)
    (hax : ∀ a, ax = some a → a < w.axes.length) (r : Option ℕ)
    (h : matchPlot e none t p (some kw) ax w = (w', .ok (some r))) :
    r = ax ∧ ∃ ls, AddedOn w w' (place w ax) ls ∧ (colours .curve ls).length = 1 := by
  unfold matchPlot at h
  simp only [Option.getD_some] at h
  split_ifs at h
  · unfold plotPdfOn at h
    rw [no_ax hkw hp] at h
    simp only [Bool.false_eq_true, if_false] at h
    rcases hq : plotPdf e t (options (.ax ax :: kw)) w with ⟨w2, y⟩
    rw [hq] at h
    cases y with
    | error err => simp at h
    | ok b =>
      simp only [Prod.mk.injEq, Except.ok.injEq, Option.some.injEq] at h
      obtain ⟨rfl, rfl⟩ := h
      have hc := cons_ax ax kw hp hkw
      obtain ⟨hb, -, ms, hadd, hms⟩ := plotPdf_ok e t _ w w2 b hw (by rw [hc]; exact hax) hq
      rw [hc] at hb
      subst hb
      refine ⟨rfl, _, hadd, ?_⟩
      have z : colours What.curve ms = [] := by
        split_ifs at hms
        · obtain ⟨m, -, rfl⟩ := hms
          exact marks_none _ (by decide) (by decide) m
        · subst hms; rfl
      simp [colours_append, main_curve, z]
  · simp at h

/-- `None` though there is a curve on the second axes -/
example : ∃ w', matchPlot env0 none normalDist none none none twoAxes = (w', .ok (some none)) ∧
    w'.axes = [[], [⟨.baseline, .grey⟩, ⟨.curve, .cycle 0⟩]] := by
  refine ⟨_, rfl, ?_⟩
  simp [plotPdfOn, plotPdf, options, Opts.set, Opts.default, getAx, labelCheck, mainLines, twoAxes, env0,
    World.add, World.linesOf, normalDist, curveColour]

/-- the axes cannot be passed in `plot_kwargs` either: then the call fails, with a TypeError unless drawing the source fails -/
theorem match_ax_keyword_fails (e : Env C) (d t : Dist) (p : Option Bool) (hpl : p.getD e.showPlot = true)
    (kw : List (Setting C)) (a : Option ℕ) (hk : Setting.ax a ∈ kw) (ax : Option ℕ) (w : World C) :
    (matchPlot e none t p (some kw) ax w).2 = .error .typeError ∧
    ∀ b, (plotPdf e d (options kw) w).2 = .ok b →
      (matchPlot e (some d) t p (some kw) ax w).2 = .error .typeError ∧
      (matchPlot e (some d) t p (some kw) ax w).1 = (plotPdf e d (options kw) w).1 := by
  have hany : kw.any (fun s => s.name = "ax") = true := by
    rw [List.any_eq_true]
    exact ⟨_, hk, by simp [Setting.name]⟩
  unfold matchPlot
  simp only [hpl, if_true, Option.getD_some, plotPdfOn, hany]
  refine ⟨trivial, fun b hb => ?_⟩
  rw [hb]
  exact ⟨rfl, rfl⟩

/-- without options the two always plot -/
theorem match_default_plot (e : Env C) (src : Option Dist) (t : Dist) (p : Option Bool) (hpl : p.getD e.showPlot = true)
    (ax : Option ℕ) (w : World C) : ∃ w' r, matchPlot e src t p none ax w = (w', .ok (some r)) := by
  unfold matchPlot
  simp only [hpl, if_true, Option.getD_none]
  have ho : options ([] : List (Setting C)) = Opts.default := rfl
  have hq : ∀ (ax : Option ℕ) (w : World C), ∃ w', plotPdfOn e t ax [] w = (w', .ok (place w ax)) := by
    intro ax w
    unfold plotPdfOn
    have : options [Setting.ax (C := C) ax] = { Opts.default with ax := ax } := rfl
    simp only [List.any_nil, Bool.false_eq_true, if_false, this]
    unfold plotPdf
    simp [Opts.default, labelCheck, getAx_place]
  cases src with
  | none =>
    obtain ⟨w', h⟩ := hq ax w
    simp only [h]
    exact ⟨_, _, rfl⟩
  | some d =>
    simp only [ho, plotPdf_default, Except.map]
    obtain ⟨w', h⟩ := hq (some (place w none)) ((getAx none w).2.add (place w none)
      (mainLines d true (Colour.cycle (e.pick ((getAx none w).2.linesOf (place w none))))))
    rw [h]
    exact ⟨_, _, rfl⟩

/-! ## dirichlet_mode -/

/-- `dirichlet_mode`: the axes and the settings arrive at the drawing function, under their names, `axes` for the axes -/
theorem dirichlet_plot {α : Type} (s : Bool) (p : Option Bool) (hp : p.getD s = true) (kw : List (String × α)) (ax : α)
    (hn : (kw.map Prod.fst).Nodup)
    (hk : ∀ n ∈ kw.map Prod.fst, n ∈ ["marginals", "pointinterval", "interval", "levels", "support", "baseline", "legend",
      "figsize"]) :
    ∃ env, dirichletPlot s p kw ax = .ok (some ⟨"plot_dirichlet", env⟩) ∧
      env.lookup "axes" = some (.user ax) ∧ env.lookup "dist" = some .self ∧
      ∀ n ∈ ["marginals", "pointinterval", "interval", "levels", "support", "baseline", "legend", "figsize"],
        env.lookup n = some (match kw.lookup n with | some a => .user a | none => .default) := by
  have hax : "ax" ∉ kw.map Prod.fst := fun h => by simpa using hk _ h
  have hnod : ((kw ++ [("ax", ax)]).map Prod.fst).Nodup := by
    rw [List.map_append, List.nodup_append]
    refine ⟨hn, by simp, ?_⟩
    intro a ha b hb
    simp at hb
    subst hb
    exact fun h => hax (h ▸ ha)
  have hself : "self" ∉ (kw ++ [("ax", ax)]).map Prod.fst := by
    rw [List.map_append, List.mem_append]
    rintro (h | h)
    · simpa using hk _ h
    · simp at h
  have hany : ((kw ++ [("ax", ax)]).map Prod.fst).any (fun n => n ∉ PlotCall.methodParams .dirichlet .pdf) = false := by
    rw [List.any_eq_false]
    intro n hn'
    rw [List.map_append, List.mem_append] at hn'
    have : n ∈ PlotCall.methodParams .dirichlet .pdf := by
      rcases hn' with h | h
      · have := hk _ h
        simp only [PlotCall.methodParams]
        simp at this ⊢
        tauto
      · simp at h; subst h; decide
    simpa using this
  have hlax : kw.lookup "ax" = none := by
    rw [List.lookup_eq_none_iff]
    intro q hq
    simp only [ne_eq, bne_iff_ne]
    intro h
    exact hax (List.mem_map.2 ⟨q, hq, h.symm⟩)
  unfold dirichletPlot PlotCall.callMethod
  simp only [hp, if_true, hany]
  rw [if_neg (by push Not; exact ⟨hnod, hself⟩), if_neg (by simp)]
  refine ⟨_, rfl, ?_, ?_, ?_⟩
  · simp [PlotCall.drawer, PlotCall.srcValue, List.lookup, List.lookup_append, hlax]
  · simp [PlotCall.drawer, PlotCall.srcValue]
  · intro n hn'
    simp only [List.mem_cons, List.not_mem_nil, or_false] at hn'
    rcases hn' with rfl | rfl | rfl | rfl | rfl | rfl | rfl | rfl <;>
    simp [PlotCall.drawer, PlotCall.srcValue, List.lookup, List.lookup_append] <;>
    (split <;> rename_i h <;> simp [h])

/-- any other keyword is a TypeError, so are axes in `plot_kwargs` -/
theorem dirichlet_plot_fails {α : Type} (s : Bool) (p : Option Bool) (hp : p.getD s = true) (kw : List (String × α)) (ax : α)
    (n : String) (hk : n ∈ kw.map Prod.fst)
    (hn : n ∉ ["marginals", "pointinterval", "interval", "levels", "support", "baseline", "legend", "figsize"]) :
    dirichletPlot s p kw ax = .error .typeError := by
  unfold dirichletPlot PlotCall.callMethod
  simp only [hp, if_true]
  by_cases h : ¬ ((kw ++ [("ax", ax)]).map Prod.fst).Nodup ∨ "self" ∈ (kw ++ [("ax", ax)]).map Prod.fst
  · rw [if_pos h]; rfl
  · rw [if_neg h, if_pos]
    · rfl
    refine ⟨rfl, ?_⟩
    rw [List.any_eq_true]
    refine ⟨n, by rw [List.map_append]; exact List.mem_append_left _ hk, ?_⟩
    push Not at h
    have hax : n ≠ "ax" := by
      rintro rfl
      have := h.1
      rw [List.map_append, List.nodup_append] at this
      exact this.2.2 _ hk _ (by simp) rfl
    simp only [PlotCall.methodParams]
    simp at hn ⊢
    tauto

example : dirichletPlot true none [("color", 1)] (2 : ℕ) = .error .typeError :=
  dirichlet_plot_fails true none rfl _ _ "color" (by simp) (by decide)

/-- the moments shown by an option are the five letters m, d, v, s, k; any other is a ValueError -/
theorem plot_moment_letters (l : List Char) :
    (labelCheck .other (.letters l) = .ok () ↔ ∀ c ∈ l, c = 'm' ∨ c = 'd' ∨ c = 'v' ∨ c = 's' ∨ c = 'k') ∧
    (labelCheck .other (.letters l) = .error .valueError ↔ ∃ c ∈ l, c ≠ 'm' ∧ c ≠ 'd' ∧ c ≠ 'v' ∧ c ≠ 's' ∧ c ≠ 'k') := by
  have e : (l.all (· ∈ letters) = true) ↔ ∀ c ∈ l, c = 'm' ∨ c = 'd' ∨ c = 'v' ∨ c = 's' ∨ c = 'k' := by
    simp [letters]
  by_cases h : l.all (· ∈ letters) = true
  · have h' := e.1 h
    simp only [labelCheck, h, if_true, true_iff, reduceCtorEq, false_iff, not_exists, not_and]
    refine ⟨h', fun c hc => ?_⟩
    have := h' c hc
    tauto
  · have h' := mt e.2 h
    simp only [labelCheck, h, if_false, reduceCtorEq, false_iff, true_iff, Bool.false_eq_true]
    push Not at h'
    exact ⟨by push Not; exact h', h'⟩

end Verif.Props
