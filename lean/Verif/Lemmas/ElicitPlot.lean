import Verif.Spec.ElicitPlot

namespace Verif.ElicitPlot
open Verif Verif.Spec

variable {C : Type}

theorem linesOf_add_same (w : World C) (a : ℕ) (ls : List (Line C)) (h : a < w.axes.length) :
    (w.add a ls).linesOf a = w.linesOf a ++ ls := by
  simp [World.add, World.linesOf, List.getD, List.getElem?_modify, List.getElem?_eq_getElem h]

theorem linesOf_add_other (w : World C) (a b : ℕ) (ls : List (Line C)) (h : b ≠ a) :
    (w.add a ls).linesOf b = w.linesOf b := by
  simp only [World.add, World.linesOf, List.getD, List.getElem?_modify]
  simp [Ne.symm h]

theorem add_length (w : World C) (a : ℕ) (ls : List (Line C)) : (w.add a ls).axes.length = w.axes.length := by
  simp [World.add]

theorem added_add {w w' : World C} {a : ℕ} {ls ls' : List (Line C)} (h : AddedOn w w' a ls) :
    AddedOn w (w'.add a ls') a (ls ++ ls') where
  exist := by rw [add_length]; exact h.exist
  here := by rw [linesOf_add_same _ _ _ h.exist, h.here, List.append_assoc]
  elsewhere b hb := by rw [linesOf_add_other _ _ _ _ hb, h.elsewhere b hb]

theorem added_trans {w w' w'' : World C} {a : ℕ} {ls ls' : List (Line C)} (h : AddedOn w w' a ls)
    (h' : AddedOn w' w'' a ls') : AddedOn w w'' a (ls ++ ls') where
  exist := h'.exist
  here := by rw [h'.here, h.here, List.append_assoc]
  elsewhere b hb := by rw [h'.elsewhere b hb, h.elsewhere b hb]

theorem getAx_place (ax : Option ℕ) (w : World C) : (getAx ax w).1 = place w ax := by
  unfold getAx place
  cases ax with
  | some a => rfl
  | none => cases h : w.active <;> simp

theorem getAx_added (ax : Option ℕ) (w : World C) (hw : World.Fine w) (ha : ∀ a, ax = some a → a < w.axes.length) :
    AddedOn w (getAx ax w).2 (getAx ax w).1 [] := by
  unfold getAx
  cases ax with
  | some a => exact ⟨ha a rfl, by simp, fun _ _ => rfl⟩
  | none =>
    cases h : w.active with
    | some a => exact ⟨hw a h, by simp, fun _ _ => rfl⟩
    | none =>
      refine ⟨by simp, by simp [World.linesOf, List.getD], ?_⟩
      intro b hb
      have hb : b ≠ w.axes.length := hb
      simp only [World.linesOf, List.getD]
      rcases lt_or_gt_of_ne hb with h1 | h1
      · rw [List.getElem?_append_left h1]
      · rw [List.getElem?_eq_none (by simp; omega), List.getElem?_eq_none (by omega)]

theorem getAx_active (ax : Option ℕ) (w : World C) (a : ℕ) (h : w.active = some a) :
    (getAx ax w).2 = w := by
  unfold getAx; cases ax <;> simp [h]

theorem getAx_some (a : ℕ) (w : World C) : (getAx (some a) w) = (a, w) := rfl

/-- a call of `plot_pdf` that returns -/
theorem plotPdf_ok (e : Env C) (d : Dist) (o : Opts C) (w w' : World C) (a : ℕ) (hw : World.Fine w)
    (ho : ∀ a, o.ax = some a → a < w.axes.length) (h : plotPdf e d o w = (w', .ok a)) :
    a = place w o.ax ∧ labelCheck o.legend o.moments = .ok () ∧
      ∃ ms, AddedOn w w' a (mainLines d o.baseline (curveColour e o (w.linesOf (place w o.ax))) ++ ms) ∧
        if o.pointinterval then
          ∃ m, PointInterval.pointInterval d.shown e.rc o.interval o.levels false = .ok m ∧ ms = m.map markLine
        else ms = [] := by
  have hadd := getAx_added o.ax w hw ho
  have hpl := getAx_place o.ax w
  have hln : (getAx o.ax w).2.linesOf (getAx o.ax w).1 = w.linesOf (place w o.ax) := by
    rw [hadd.here, hpl]; simp
  unfold plotPdf at h
  simp only at h
  cases hl : labelCheck o.legend o.moments with
  | error err => rw [hl] at h; simp at h
  | ok u =>
    rw [hl] at h
    simp only at h
    split_ifs at h with h1 h2
    · simp at h
    · cases hp : PointInterval.pointInterval d.shown e.rc o.interval o.levels false with
      | error err => rw [hp] at h; simp at h
      | ok m =>
        rw [hp] at h
        simp only [Prod.mk.injEq, Except.ok.injEq] at h
        obtain ⟨h3, h4⟩ := h
        subst h4
        refine ⟨hpl, rfl, m.map markLine, ?_, ?_⟩
        · rw [← h3]
          have := added_add (ls' := m.map markLine) (added_add (ls' := mainLines d o.baseline (curveColour e o (w.linesOf (place w o.ax)))) hadd)
          rw [hln]
          simpa using this
        · rw [if_pos h2]; exact ⟨m, rfl, rfl⟩
    · simp only [Prod.mk.injEq, Except.ok.injEq] at h
      obtain ⟨h3, h4⟩ := h
      subst h4
      refine ⟨hpl, rfl, [], ?_, ?_⟩
      · rw [← h3]
        have := added_add (ls' := mainLines d o.baseline (curveColour e o (w.linesOf (place w o.ax)))) hadd
        rw [hln]
        simpa using this
      · rw [if_neg h2]

end Verif.ElicitPlot

namespace Verif.ElicitPlot
open Verif Verif.Spec

variable {C : Type}

theorem foldl_skip {β : Type} (f : Opts C → β) (n : String) (hf : ∀ o s, s.name ≠ n → f (o.set s) = f o) :
    ∀ (kw : List (Setting C)) (o : Opts C), (∀ s ∈ kw, s.name ≠ n) → f (kw.foldl Opts.set o) = f o
  | [], _, _ => rfl
  | s :: kw, o, h => by
    rw [List.foldl_cons, foldl_skip f n hf kw _ fun t ht => h t (List.mem_cons_of_mem _ ht),
      hf o s (h s List.mem_cons_self)]

/-- an option that is set -/
theorem options_mem {β : Type} (f : Opts C → β) (n : String) (hf : ∀ o s, s.name ≠ n → f (o.set s) = f o)
    (s : Setting C) (v : β) (hs : s.name = n) (hv : ∀ o : Opts C, f (o.set s) = v) :
    ∀ (kw : List (Setting C)) (o : Opts C), (kw.map Setting.name).Nodup → s ∈ kw → f (kw.foldl Opts.set o) = v
  | [], _, _, h => by cases h
  | t :: kw, o, hn, h => by
    rw [List.map_cons, List.nodup_cons] at hn
    rw [List.foldl_cons]
    rcases List.mem_cons.1 h with rfl | h
    · rw [foldl_skip f n hf kw _, hv]
      intro u hu hne
      exact hn.1 (List.mem_map.2 ⟨u, hu, by rw [hne, hs]⟩)
    · exact options_mem f n hf s v hs hv kw _ hn.2 h

theorem opt_ax (o : Opts C) (s : Setting C) (h : s.name ≠ "ax") : (o.set s).ax = o.ax := by
  cases s with
  | moments l => cases l <;> rfl
  | ax a => exact absurd rfl h
  | _ => rfl
theorem opt_color (o : Opts C) (s : Setting C) (h : s.name ≠ "color") : (o.set s).color = o.color := by
  cases s with
  | moments l => cases l <;> rfl
  | color a => exact absurd rfl h
  | _ => rfl
theorem opt_baseline (o : Opts C) (s : Setting C) (h : s.name ≠ "baseline") : (o.set s).baseline = o.baseline := by
  cases s with
  | moments l => cases l <;> rfl
  | baseline a => exact absurd rfl h
  | _ => rfl
theorem opt_pointinterval (o : Opts C) (s : Setting C) (h : s.name ≠ "pointinterval") :
    (o.set s).pointinterval = o.pointinterval := by
  cases s with
  | moments l => cases l <;> rfl
  | pointinterval a => exact absurd rfl h
  | _ => rfl
theorem opt_interval (o : Opts C) (s : Setting C) (h : s.name ≠ "interval") : (o.set s).interval = o.interval := by
  cases s with
  | moments l => cases l <;> rfl
  | interval a => exact absurd rfl h
  | _ => rfl
theorem opt_levels (o : Opts C) (s : Setting C) (h : s.name ≠ "levels") : (o.set s).levels = o.levels := by
  cases s with
  | moments l => cases l <;> rfl
  | levels a => exact absurd rfl h
  | _ => rfl

theorem name_ax {s : Setting C} {kw : List (Setting C)} (hp : Proper kw) (hs : s ∈ kw) (h : s.name = "ax") :
    ∃ a, s = .ax a := by
  cases s with
  | ax a => exact ⟨a, rfl⟩
  | style n => exact absurd h (by intro h; subst h; exact hp.styles _ hs (by simp [Setting.name]))
  | _ => simp [Setting.name] at h

theorem name_color {s : Setting C} {kw : List (Setting C)} (hp : Proper kw) (hs : s ∈ kw) (h : s.name = "color") :
    ∃ a, s = .color a := by
  cases s with
  | color a => exact ⟨a, rfl⟩
  | style n => exact absurd h (by intro h; subst h; exact hp.styles _ hs (by simp [Setting.name]))
  | _ => simp [Setting.name] at h

theorem name_baseline {s : Setting C} {kw : List (Setting C)} (hp : Proper kw) (hs : s ∈ kw)
    (h : s.name = "baseline") : ∃ a, s = .baseline a := by
  cases s with
  | baseline a => exact ⟨a, rfl⟩
  | style n => exact absurd h (by intro h; subst h; exact hp.styles _ hs (by simp [Setting.name]))
  | _ => simp [Setting.name] at h

theorem name_pointinterval {s : Setting C} {kw : List (Setting C)} (hp : Proper kw) (hs : s ∈ kw)
    (h : s.name = "pointinterval") : ∃ a, s = .pointinterval a := by
  cases s with
  | pointinterval a => exact ⟨a, rfl⟩
  | style n => exact absurd h (by intro h; subst h; exact hp.styles _ hs (by simp [Setting.name]))
  | _ => simp [Setting.name] at h

/-- the axes in the dictionary -/
theorem options_ax (kw : List (Setting C)) (hp : Proper kw) :
    (∀ a, Setting.ax a ∈ kw → (options kw).ax = a) ∧ ((∀ a, Setting.ax a ∉ kw) → (options kw).ax = none) := by
  constructor
  · intro a ha
    exact options_mem Opts.ax "ax" opt_ax (.ax a) a rfl (fun _ => rfl) kw _ hp.nodup ha
  · intro h
    exact foldl_skip Opts.ax "ax" opt_ax kw _ fun s hs hn => by
      obtain ⟨a, rfl⟩ := name_ax hp hs hn
      exact h a hs

theorem options_color (kw : List (Setting C)) (hp : Proper kw) :
    (∀ c, Setting.color c ∈ kw → (options kw).color = some c) ∧
      ((∀ c, Setting.color c ∉ kw) → (options kw).color = none) := by
  constructor
  · intro a ha
    exact options_mem Opts.color "color" opt_color (.color a) (some a) rfl (fun _ => rfl) kw _ hp.nodup ha
  · intro h
    exact foldl_skip Opts.color "color" opt_color kw _ fun s hs hn => by
      obtain ⟨a, rfl⟩ := name_color hp hs hn
      exact h a hs

theorem options_baseline (kw : List (Setting C)) (hp : Proper kw) :
    (options kw).baseline = true ↔ Setting.baseline false ∉ kw := by
  by_cases h : Setting.baseline false ∈ kw
  · have := options_mem Opts.baseline "baseline" opt_baseline (.baseline false) false rfl (fun _ => rfl) kw Opts.default
      hp.nodup h
    simp [options, this, h]
  · simp only [h, not_false_eq_true, iff_true]
    by_cases h' : Setting.baseline true ∈ kw
    · exact options_mem Opts.baseline "baseline" opt_baseline (.baseline true) true rfl (fun _ => rfl) kw _ hp.nodup h'
    · exact foldl_skip Opts.baseline "baseline" opt_baseline kw _ fun s hs hn => by
        obtain ⟨a, rfl⟩ := name_baseline hp hs hn
        cases a
        · exact h hs
        · exact h' hs

theorem options_pointinterval (kw : List (Setting C)) (hp : Proper kw) :
    (options kw).pointinterval = true ↔ Setting.pointinterval true ∈ kw := by
  by_cases h : Setting.pointinterval true ∈ kw
  · have := options_mem Opts.pointinterval "pointinterval" opt_pointinterval (.pointinterval true) true rfl
      (fun _ => rfl) kw Opts.default hp.nodup h
    simp [options, this, h]
  · simp only [h, iff_false, Bool.not_eq_true]
    by_cases h' : Setting.pointinterval false ∈ kw
    · exact options_mem Opts.pointinterval "pointinterval" opt_pointinterval (.pointinterval false) false rfl
        (fun _ => rfl) kw _ hp.nodup h'
    · exact foldl_skip Opts.pointinterval "pointinterval" opt_pointinterval kw _ fun s hs hn => by
        obtain ⟨a, rfl⟩ := name_pointinterval hp hs hn
        cases a
        · exact h' hs
        · exact h hs

/-- the last lines of what has just been drawn -/
theorem reverse_get (old : List (Line C)) (new : List (Line C)) (i : ℕ) (h : i < new.length) :
    (old ++ new).reverse[i]? = new.reverse[i]? := by
  rw [List.reverse_append, List.getElem?_append_left (by simpa using h)]

/-- a plot of `maxent` or `quartile` that returns -/
theorem elicit_ok (e : Env C) (d : Dist) (p : Option Bool) (kw : Option (List (Setting C))) (ax : Option ℕ)
    (w w' : World C) (a : ℕ) (hw : World.Fine w) (hax : ∀ b, (options (kw.getD [])).ax = some b → b < w.axes.length)
    (h : elicitPlot e d p kw ax w = (w', .ok (some a))) :
    a = place w (options (kw.getD [])).ax ∧
      ∃ ms l, AddedOn w w' a (mainLines d (options (kw.getD [])).baseline
          (curveColour e (options (kw.getD [])) (w.linesOf (place w (options (kw.getD [])).ax))) ++ ms ++
          [⟨.bounds, l⟩]) ∧
        (∃ l', (w.linesOf a ++ (mainLines d (options (kw.getD [])).baseline
          (curveColour e (options (kw.getD [])) (w.linesOf (place w (options (kw.getD [])).ax))) ++ ms)).reverse[
            (if (options (kw.getD [])).pointinterval then 4 else 1) - 1]? = some l' ∧ l = l'.colour) ∧
        if (options (kw.getD [])).pointinterval then
          ∃ m, PointInterval.pointInterval d.shown e.rc (options (kw.getD [])).interval (options (kw.getD [])).levels
            false = .ok m ∧ ms = m.map markLine
        else ms = [] := by
  unfold elicitPlot at h
  simp only at h
  split_ifs at h with hp
  · rcases hq : plotPdf e d (options (kw.getD [])) w with ⟨w1, r⟩
    rw [hq] at h
    cases r with
    | error err => simp at h
    | ok b =>
      simp only [Prod.mk.injEq] at h
      obtain ⟨h1, h2⟩ := h
      obtain ⟨hb, -, ms, hadd, hms⟩ := plotPdf_ok e d _ w w1 b hw hax hq
      unfold addBounds at h1 h2
      simp only at h1 h2
      have hlines := hadd.here
      cases hg : (w1.linesOf b).reverse[(if wantsInterval (kw.getD []) = true then 4 else 1) - 1]? with
      | none => rw [hg] at h2; simp [Except.map] at h2
      | some l' =>
        rw [hg] at h1 h2
        simp only [Except.map, Except.ok.injEq, Option.some.injEq] at h2
        subst h2
        refine ⟨hb, ms, l'.colour, ?_, ⟨l', ?_, rfl⟩, hms⟩
        · rw [← h1]; exact added_add hadd
        · rw [← hlines]; exact hg
  · simp at h

/-- the default interval, or two levels, and proper intervals: three marks -/
theorem three_marks (s : PointInterval.Shown) (rc : PointInterval.Settings) (kind : Option String)
    (levels : Option (List ℝ)) (hk : kind.getD rc.kind = "hdi" ∨ kind.getD rc.kind = "eti")
    (hl : levels = none ∨ ∃ a b, levels = some [a, b])
    (h1 : ∀ p, (s.hdi p).1 < (s.hdi p).2) (h2 : ∀ p, (s.eti p).1 < (s.eti p).2) (ms : List PointInterval.Mark)
    (h : PointInterval.pointInterval s rc kind levels false = .ok ms) : ∃ x y z, ms.map (markLine (C := C)) =
      [⟨.interval, .black⟩, ⟨.interval, .black⟩, ⟨.point, .white⟩] ∧ ms = [x, y, z] := by
  unfold PointInterval.pointInterval PointInterval.values at h
  have hq : kind.getD rc.kind ≠ "quantiles" := by rcases hk with h | h <;> simp [h]
  have hl2 : ∃ a b, levels.getD [0.5, rc.prob] = [a, b] := by
    rcases hl with rfl | ⟨a, b, rfl⟩
    · exact ⟨_, _, rfl⟩
    · exact ⟨a, b, rfl⟩
  obtain ⟨a, b, hab⟩ := hl2
  simp only [hq, if_false, hab] at h
  rcases hk with hk | hk <;>
  simp [hk, Except.bind, Except.map, PointInterval.draw, PointInterval.subInterval, h1, h2] at h <;>
  subst h <;> simp [markLine]

end Verif.ElicitPlot

namespace Verif.ElicitPlot
open Verif Verif.Spec

variable {C : Type}

theorem getAx_elsewhere (ax : Option ℕ) (w : World C) (b : ℕ) (hb : b ≠ place w ax) :
    (getAx ax w).2.linesOf b = w.linesOf b := by
  unfold getAx place at *
  cases ax with
  | some a => rfl
  | none =>
    cases h : w.active with
    | some a => rfl
    | none =>
      rw [h] at hb
      have hb : b ≠ w.axes.length := hb
      simp only [World.linesOf, List.getD]
      rcases lt_or_gt_of_ne hb with h1 | h1
      · rw [List.getElem?_append_left h1]
      · rw [List.getElem?_eq_none (by simp; omega), List.getElem?_eq_none (by omega)]

/-- whatever happens, nothing is drawn on other axes -/
theorem plotPdf_elsewhere (e : Env C) (d : Dist) (o : Opts C) (w : World C) (b : ℕ) (hb : b ≠ place w o.ax) :
    (plotPdf e d o w).1.linesOf b = w.linesOf b := by
  have hg := getAx_elsewhere o.ax w b hb
  have hb' : b ≠ (getAx o.ax w).1 := by rw [getAx_place]; exact hb
  unfold plotPdf
  simp only
  split
  · exact hg
  · split_ifs
    · exact hg
    · split
      · simp only [linesOf_add_other _ _ _ _ hb', hg]
      · simp only [linesOf_add_other _ _ _ _ hb', hg]
    · simp only [linesOf_add_other _ _ _ _ hb', hg]

theorem addBounds_elsewhere (kw : List (Setting C)) (a b : ℕ) (w : World C) (hb : b ≠ a) :
    (addBounds kw a w).1.linesOf b = w.linesOf b := by
  unfold addBounds
  simp only
  split
  · rfl
  · simp only [linesOf_add_other _ _ _ _ hb]

/-- the axes `plot_pdf` returns -/
theorem plotPdf_returns (e : Env C) (d : Dist) (o : Opts C) (w w' : World C) (a : ℕ)
    (h : plotPdf e d o w = (w', .ok a)) : a = place w o.ax := by
  rw [← getAx_place]
  unfold plotPdf at h
  simp only at h
  split at h
  · simp at h
  · split_ifs at h
    · simp at h
    · split at h <;> simp at h
      exact h.2.symm
    · simp at h; exact h.2.symm

theorem elicit_elsewhere (e : Env C) (d : Dist) (p : Option Bool) (kw : Option (List (Setting C))) (ax : Option ℕ)
    (w : World C) (b : ℕ) (hb : b ≠ place w (options (kw.getD [])).ax) :
    (elicitPlot e d p kw ax w).1.linesOf b = w.linesOf b := by
  unfold elicitPlot
  simp only
  split_ifs
  · rcases hq : plotPdf e d (options (kw.getD [])) w with ⟨w1, r⟩
    have h1 := plotPdf_elsewhere e d _ w b hb
    rw [hq] at h1
    cases r with
    | error err => exact h1
    | ok a =>
      have ha := plotPdf_returns e d _ w w1 a hq
      subst ha
      exact (addBounds_elsewhere _ _ _ _ hb).trans h1
  · rfl

theorem getAx_now (ax : Option ℕ) (w : World C) (h : ax = none) : (getAx ax w).2.active = some (place w none) := by
  subst h
  unfold getAx place
  cases hw : w.active <;> simp [hw]

theorem add_active (w : World C) (a : ℕ) (ls : List (Line C)) : (w.add a ls).active = w.active := rfl

/-- `plot_pdf` with no options never fails -/
theorem plotPdf_default (e : Env C) (d : Dist) (w : World C) :
    plotPdf e d Opts.default w =
      ((getAx none w).2.add (place w none)
        (mainLines d true (.cycle (e.pick ((getAx none w).2.linesOf (place w none))))), .ok (place w none)) := by
  unfold plotPdf
  simp only [Opts.default, getAx_place]
  simp [labelCheck, curveColour]

theorem fine_add (w : World C) (a : ℕ) (ls : List (Line C)) (h : World.Fine w) : World.Fine (w.add a ls) := by
  intro b hb
  rw [add_length]
  exact h b hb

theorem fine_getAx (ax : Option ℕ) (w : World C) (h : World.Fine w) : World.Fine (getAx ax w).2 := by
  unfold getAx
  cases ax with
  | some a => exact h
  | none =>
    cases hw : w.active with
    | some a => exact h
    | none =>
      intro b hb
      simp at hb
      subst hb
      simp

theorem fine_plotPdf (e : Env C) (d : Dist) (o : Opts C) (w : World C) (h : World.Fine w) :
    World.Fine (plotPdf e d o w).1 := by
  have hg := fine_getAx o.ax w h
  unfold plotPdf
  simp only
  split
  · exact hg
  · split_ifs
    · exact hg
    · split
      · exact fine_add _ _ _ hg
      · exact fine_add _ _ _ (fine_add _ _ _ hg)
    · exact fine_add _ _ _ hg

end Verif.ElicitPlot
