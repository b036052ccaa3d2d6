import Verif.Model.PointInterval

/-!
# C79: point and interval below a plot
-/

namespace Verif.Props
open Verif Verif.PointInterval

/-- the values over which lines of the given width run; the axis is the horizontal one, or the vertical one when
rotated -/
def covered (rotated : Bool) (width : ℝ) (ms : List Mark) : Set ℝ :=
  {v | ∃ p q, Mark.line p q width ∈ ms ∧
    if rotated then p.1 = 0 ∧ q.1 = 0 ∧ p.2 ≤ v ∧ v ≤ q.2 else p.2 = 0 ∧ q.2 = 0 ∧ p.1 ≤ v ∧ v ≤ q.1}

/-- the values at which a dot is drawn -/
def dots (rotated : Bool) (ms : List Mark) : Set ℝ := {v | Mark.dot (if rotated then (0, v) else (v, 0)) ∈ ms}

/-- the values that belong to an interval; on the circle an interval may run through π -/
def member (i : ℝ × ℝ) : Set ℝ :=
  if i.1 ≤ i.2 then Set.Icc i.1 i.2 else Set.Icc i.1 Real.pi ∪ Set.Icc (-Real.pi) i.2

private theorem covered_append (r : Bool) (w : ℝ) (a b : List Mark) :
    covered r w (a ++ b) = covered r w a ∪ covered r w b := by
  ext v
  simp only [covered, Set.mem_setOf_eq, Set.mem_union, List.mem_append]
  constructor
  · rintro ⟨p, q, h | h, h2⟩
    · exact Or.inl ⟨p, q, h, h2⟩
    · exact Or.inr ⟨p, q, h, h2⟩
  · rintro (⟨p, q, h, h2⟩ | ⟨p, q, h, h2⟩)
    · exact ⟨p, q, Or.inl h, h2⟩
    · exact ⟨p, q, Or.inr h, h2⟩

private theorem covered_dot (r : Bool) (w : ℝ) (p : ℝ × ℝ) : covered r w [.dot p] = ∅ := by
  ext v; simp [covered]

private theorem covered_line (r : Bool) (w w' a b : ℝ) :
    covered r w [.line (place r a) (place r b) w'] = if w = w' then Set.Icc a b else ∅ := by
  ext v
  by_cases h : w = w'
  · subst h
    rw [if_pos rfl]
    simp only [covered, Set.mem_setOf_eq, List.mem_singleton, Mark.line.injEq, and_true, Set.mem_Icc]
    constructor
    · rintro ⟨p, q, ⟨rfl, rfl⟩, h2⟩
      cases r <;> simpa [place] using h2
    · intro h2
      exact ⟨_, _, ⟨rfl, rfl⟩, by cases r <;> simpa [place] using h2⟩
  · rw [if_neg h]
    simp only [covered, Set.mem_setOf_eq, List.mem_singleton, Mark.line.injEq, Set.mem_empty_iff_false, iff_false]
    rintro ⟨p, q, ⟨-, -, h3⟩, -⟩
    exact h h3

private theorem covered_sub (r : Bool) (w w' a b : ℝ) (hab : a ≠ b) :
    covered r w (subInterval r w' a b) = if w = w' then member (a, b) else ∅ := by
  unfold subInterval member
  by_cases h : a < b
  · rw [if_pos h, if_pos h.le, covered_line]
  · rw [if_neg h, if_neg (fun h' => h (lt_of_le_of_ne h' hab))]
    rw [show ∀ x y : Mark, [x, y] = [x] ++ [y] from fun _ _ => rfl, covered_append, covered_line, covered_line]
    split_ifs <;> simp

private theorem dots_append (r : Bool) (a b : List Mark) : dots r (a ++ b) = dots r a ∪ dots r b := by
  ext v; simp [dots]

private theorem dots_sub (r : Bool) (w a b : ℝ) : dots r (subInterval r w a b) = ∅ := by
  ext v
  unfold subInterval dots
  split <;> simp

private theorem dots_dot (r : Bool) (v : ℝ) : dots r [.dot (place r v)] = {v} := by
  ext u
  cases r <;> simp [dots, place]

/-- the interval of the named kind -/
def Kind (s : Shown) (kind : String) (f : ℝ → ℝ × ℝ) : Prop := (kind = "eti" ∧ f = s.eti) ∨ (kind = "hdi" ∧ f = s.hdi)

private theorem kind_values (s : Shown) (rc : Settings) (interval : Option String) (levels : Option (List ℝ))
    (f : ℝ → ℝ × ℝ) (hk : Kind s (interval.getD rc.kind) f)
    (hl : ∀ l, levels = some l → l.length = 1 ∨ l.length = 2) :
    values s rc interval levels = match (levels.getD [0.5, rc.prob]).map f with
      | [a, b] => .ok [b.1, a.1, s.median, a.2, b.2]
      | [a] => .ok [a.1, s.median, a.2]
      | _ => .ok [] := by
  have hq : interval.getD rc.kind ≠ "quantiles" := by
    rcases hk with ⟨h, -⟩ | ⟨h, -⟩ <;> rw [h] <;> decide
  unfold values
  dsimp only
  rw [if_neg hq, if_neg]
  · rcases hk with ⟨h, rfl⟩ | ⟨h, rfl⟩
    · rw [if_pos h]; rfl
    · rw [if_neg (by rw [h]; decide), if_pos h]; rfl
  · rintro ⟨h1, h2⟩
    obtain ⟨l, rfl⟩ := Option.isSome_iff_exists.1 h1
    rcases hl l rfl with h | h <;> simp [h] at h2

/-- C79: with two levels (or none: 0.5 and the setting) the thin line runs over exactly the values of the interval of
the second level, the thick line over exactly those of the first one, and the only dot is at the median.

Partial: intervals of a single value are excluded, see `single_value_fails`. -/
theorem two_intervals_partial (s : Shown) (rc : Settings) (interval : Option String) (levels : Option (List ℝ))
    (rotated : Bool) (f : ℝ → ℝ × ℝ) (hk : Kind s (interval.getD rc.kind) f) (a b : ℝ)
    (hl : levels.getD [0.5, rc.prob] = [a, b]) (h1 : (f a).1 ≠ (f a).2) (h2 : (f b).1 ≠ (f b).2) :
    Gives (pointInterval s rc interval levels rotated) fun ms =>
      covered rotated 1.5 ms = member (f b) ∧ covered rotated 4 ms = member (f a) ∧ dots rotated ms = {s.median} := by
  have hv := kind_values s rc interval levels f hk (by
    intro l h
    rw [h] at hl
    simp only [Option.getD_some] at hl
    right; rw [hl]; rfl)
  rw [hl] at hv
  simp only [List.map_cons, List.map_nil] at hv
  unfold pointInterval
  rw [hv]
  refine ⟨_, rfl, ?_⟩
  simp only [draw]
  rw [covered_append, covered_append, covered_append, covered_append, covered_sub _ _ _ _ _ h2,
    covered_sub _ _ _ _ _ h1, covered_sub _ _ _ _ _ h2, covered_sub _ _ _ _ _ h1, covered_dot, covered_dot,
    dots_append, dots_append, dots_sub, dots_sub, dots_dot]
  norm_num

/-- C79: with one level the thick line runs over its interval and there is no thin line. -/
theorem one_interval_partial (s : Shown) (rc : Settings) (interval : Option String) (rotated : Bool) (f : ℝ → ℝ × ℝ)
    (hk : Kind s (interval.getD rc.kind) f) (a : ℝ) (h1 : (f a).1 ≠ (f a).2) :
    Gives (pointInterval s rc interval (some [a]) rotated) fun ms =>
      covered rotated 1.5 ms = ∅ ∧ covered rotated 4 ms = member (f a) ∧ dots rotated ms = {s.median} := by
  have hv := kind_values s rc interval (some [a]) f hk (by intro l h; cases h; left; rfl)
  simp only [Option.getD_some, List.map_cons, List.map_nil] at hv
  unfold pointInterval
  rw [hv]
  refine ⟨_, rfl, ?_⟩
  simp only [draw]
  rw [covered_append, covered_append, covered_sub _ _ _ _ _ h1, covered_sub _ _ _ _ _ h1, covered_dot, covered_dot,
    dots_append, dots_sub, dots_dot]
  norm_num

/-- C79: an interval of one value `v`, as discrete distributions have, is drawn as a line around the whole circle,
through values the distribution cannot take. -/
theorem single_value_fails (s : Shown) (rc : Settings) (interval : Option String) (rotated : Bool) (f : ℝ → ℝ × ℝ)
    (hk : Kind s (interval.getD rc.kind) f) (a v : ℝ) (h1 : f a = (v, v)) :
    Gives (pointInterval s rc interval (some [a]) rotated) fun ms =>
      covered rotated 4 ms = Set.Icc v Real.pi ∪ Set.Icc (-Real.pi) v ∧ covered rotated 4 ms ≠ member (f a) := by
  have hv := kind_values s rc interval (some [a]) f hk (by intro l h; cases h; left; rfl)
  simp only [Option.getD_some, List.map_cons, List.map_nil] at hv
  unfold pointInterval
  rw [hv]
  refine ⟨_, rfl, ?_⟩
  have hc : covered rotated 4 (draw rotated [(f a).1, s.median, (f a).2]) =
      Set.Icc v Real.pi ∪ Set.Icc (-Real.pi) v := by
    simp only [draw]
    rw [covered_append, covered_dot, h1]
    unfold subInterval
    rw [if_neg (lt_irrefl _), show ∀ x y : Mark, [x, y] = [x] ++ [y] from fun _ _ => rfl, covered_append, covered_line,
      covered_line, if_pos rfl, if_pos rfl]
    simp
  refine ⟨hc, ?_⟩
  rw [hc, h1, member, if_pos (le_refl v), Set.Icc_self]
  intro h
  have hp := Real.pi_pos
  by_cases hv : v < Real.pi
  · have : Real.pi ∈ ({v} : Set ℝ) := by rw [← h]; left; exact ⟨hv.le, le_refl _⟩
    rw [Set.mem_singleton_iff] at this
    linarith
  · push Not at hv
    have : -Real.pi ∈ ({v} : Set ℝ) := by rw [← h]; right; exact ⟨le_refl _, by linarith⟩
    rw [Set.mem_singleton_iff] at this
    linarith

private theorem quantile_values (s : Shown) (rc : Settings) (interval : Option String) (levels : Option (List ℝ))
    (hk : interval.getD rc.kind = "quantiles") (l : List ℝ) (hl : levels.getD [0.05, 0.25, 0.5, 0.75, 0.95] = l)
    (h5 : l.length ∈ [5, 3, 1, 0]) : values s rc interval levels = .ok (s.quantiles l) := by
  unfold values
  dsimp only
  rw [if_pos hk]
  cases levels with
  | none =>
    simp only [Option.getD_none] at hl
    rw [hl]
  | some l' =>
    simp only [Option.getD_some] at hl
    subst hl
    dsimp only
    rw [if_pos h5]

/-- C79: with five increasing quantiles the thin line joins the outer ones, the thick line the next ones, and the dot is
at the middle one. -/
theorem five_quantiles (s : Shown) (rc : Settings) (interval : Option String) (levels : Option (List ℝ))
    (rotated : Bool) (hk : interval.getD rc.kind = "quantiles") (l : List ℝ)
    (hl : levels.getD [0.05, 0.25, 0.5, 0.75, 0.95] = l) (h5 : l.length = 5) (a b c d e : ℝ)
    (hq : s.quantiles l = [a, b, c, d, e]) (hs : [a, b, c, d, e].Pairwise (· < ·)) :
    Gives (pointInterval s rc interval levels rotated) fun ms =>
      covered rotated 1.5 ms = Set.Icc a e ∧ covered rotated 4 ms = Set.Icc b d ∧ dots rotated ms = {c} := by
  unfold pointInterval
  rw [quantile_values s rc interval levels hk l hl (by rw [h5]; decide), hq]
  refine ⟨_, rfl, ?_⟩
  simp only [List.pairwise_cons, List.mem_cons, List.not_mem_nil, or_false, forall_eq_or_imp, forall_eq] at hs
  have hae : a < e := hs.1.2.2.2
  have hbd : b < d := hs.2.1.2.1
  simp only [draw]
  rw [covered_append, covered_append, covered_append, covered_append, covered_sub _ _ _ _ _ hae.ne,
    covered_sub _ _ _ _ _ hae.ne, covered_sub _ _ _ _ _ hbd.ne, covered_sub _ _ _ _ _ hbd.ne, covered_dot, covered_dot,
    dots_append, dots_append, dots_sub, dots_sub, dots_dot]
  unfold member
  dsimp only
  rw [if_pos hae.le, if_pos hbd.le]
  norm_num

/-- C79: with three increasing quantiles the thick line joins the outer ones; with one there is only its dot; with none
nothing is drawn. -/
theorem fewer_quantiles (s : Shown) (rc : Settings) (interval : Option String) (l : List ℝ) (rotated : Bool)
    (hk : interval.getD rc.kind = "quantiles") (hlen : (s.quantiles l).length = l.length) :
    (∀ b c d, s.quantiles l = [b, c, d] → b < d → Gives (pointInterval s rc interval (some l) rotated) fun ms =>
      covered rotated 1.5 ms = ∅ ∧ covered rotated 4 ms = Set.Icc b d ∧ dots rotated ms = {c}) ∧
    (∀ c, s.quantiles l = [c] → Gives (pointInterval s rc interval (some l) rotated) fun ms =>
      ms = [.dot (if rotated then (0, c) else (c, 0))]) ∧
    (l = [] → pointInterval s rc interval (some l) rotated = .ok []) := by
  refine ⟨?_, ?_, ?_⟩
  · intro b c d hq hbd
    unfold pointInterval
    rw [quantile_values s rc interval (some l) hk l rfl (by rw [← hlen, hq]; simp), hq]
    refine ⟨_, rfl, ?_⟩
    simp only [draw]
    rw [covered_append, covered_append, covered_sub _ _ _ _ _ hbd.ne, covered_sub _ _ _ _ _ hbd.ne, covered_dot,
      covered_dot, dots_append, dots_sub, dots_dot]
    unfold member
    dsimp only
    rw [if_pos hbd.le]
    norm_num
  · intro c hq
    unfold pointInterval
    rw [quantile_values s rc interval (some l) hk l rfl (by rw [← hlen, hq]; simp), hq]
    exact ⟨_, rfl, rfl⟩
  · rintro rfl
    unfold pointInterval
    rw [quantile_values s rc interval (some []) hk [] rfl (by simp)]
    rw [List.length_nil, List.length_eq_zero_iff] at hlen
    rw [hlen]
    rfl

/-- C79: quantiles that are not in increasing order are drawn as if they were on a circle. -/
theorem unordered_quantiles_fail (s : Shown) (rc : Settings) (interval : Option String) (l : List ℝ) (rotated : Bool)
    (hk : interval.getD rc.kind = "quantiles") (hlen : (s.quantiles l).length = l.length) (b c d : ℝ)
    (hq : s.quantiles l = [b, c, d]) (hbd : d < b) :
    Gives (pointInterval s rc interval (some l) rotated) fun ms =>
      covered rotated 4 ms = Set.Icc b Real.pi ∪ Set.Icc (-Real.pi) d := by
  unfold pointInterval
  rw [quantile_values s rc interval (some l) hk l rfl (by rw [← hlen, hq]; simp), hq]
  refine ⟨_, rfl, ?_⟩
  simp only [draw]
  rw [covered_append, covered_sub _ _ _ _ _ hbd.ne', covered_dot]
  unfold member
  dsimp only
  rw [if_pos rfl, if_neg (not_le.2 hbd)]
  simp

/-- C79: requests with another number of levels are rejected, and an unknown kind raises an error. -/
theorem bad_levels_rejected (s : Shown) (rc : Settings) (interval : Option String) (l : List ℝ) (rotated : Bool) :
    (interval.getD rc.kind = "quantiles" → l.length ∉ [5, 3, 1, 0] →
      pointInterval s rc interval (some l) rotated = .error .valueError) ∧
    (interval.getD rc.kind ≠ "quantiles" → l.length ∉ [2, 1] →
      pointInterval s rc interval (some l) rotated = .error .valueError) ∧
    (interval.getD rc.kind ∉ ["quantiles", "eti", "hdi"] → l.length ∈ [2, 1] →
      pointInterval s rc interval (some l) rotated = .error .nameError) := by
  unfold pointInterval values
  dsimp only
  refine ⟨?_, ?_, ?_⟩
  · intro h1 h2
    rw [if_pos h1, if_neg h2]; rfl
  · intro h1 h2
    rw [if_neg h1, if_pos ⟨rfl, h2⟩]; rfl
  · intro h1 h2
    simp only [List.mem_cons, List.not_mem_nil, or_false, not_or] at h1
    rw [if_neg h1.1, if_neg (by simp only [Option.getD_some]; exact fun h => h.2 h2), if_neg h1.2.1, if_neg h1.2.2]
    rfl

/-! ## Examples -/

/-- a uniform distribution on the interval from 0 to 1 -/
private noncomputable def unit : Shown where
  quantiles := id
  hdi m := (0, m)
  eti m := ((1 - m) / 2, (1 + m) / 2)
  median := 1 / 2

example : Gives (pointInterval unit ⟨"eti", 0.94⟩ none none false) fun ms =>
    covered false 1.5 ms = member (unit.eti 0.94) ∧ covered false 4 ms = member (unit.eti 0.5) ∧
      dots false ms = {(1 / 2 : ℝ)} :=
  two_intervals_partial unit ⟨"eti", 0.94⟩ none none false unit.eti (Or.inl ⟨rfl, rfl⟩) 0.5 0.94 rfl
    (by norm_num [unit]) (by norm_num [unit])

example : Gives (pointInterval unit ⟨"eti", 0.94⟩ (some "hdi") (some [0.5]) true) fun ms =>
    covered true 1.5 ms = ∅ ∧ covered true 4 ms = member (unit.hdi 0.5) ∧ dots true ms = {(1 / 2 : ℝ)} :=
  one_interval_partial unit ⟨"eti", 0.94⟩ (some "hdi") true unit.hdi (Or.inr ⟨rfl, rfl⟩) 0.5 (by norm_num [unit])

example : Gives (pointInterval unit ⟨"eti", 0.94⟩ (some "quantiles") none false) fun ms =>
    covered false 1.5 ms = Set.Icc 0.05 0.95 ∧ covered false 4 ms = Set.Icc 0.25 0.75 ∧ dots false ms = {0.5} :=
  five_quantiles unit ⟨"eti", 0.94⟩ (some "quantiles") none false rfl _ rfl rfl _ _ _ _ _ rfl (by norm_num)

example : Gives (pointInterval unit ⟨"eti", 0.94⟩ (some "quantiles") (some [0.1, 0.5, 0.9]) false) fun ms =>
    covered false 1.5 ms = ∅ ∧ covered false 4 ms = Set.Icc 0.1 0.9 ∧ dots false ms = {0.5} :=
  (fewer_quantiles unit ⟨"eti", 0.94⟩ (some "quantiles") _ false rfl rfl).1 _ _ _ rfl (by norm_num)

example : Gives (pointInterval unit ⟨"eti", 0.94⟩ (some "quantiles") (some [0.9, 0.5, 0.1]) false) fun ms =>
    covered false 4 ms = Set.Icc 0.9 Real.pi ∪ Set.Icc (-Real.pi) 0.1 :=
  unordered_quantiles_fail unit ⟨"eti", 0.94⟩ (some "quantiles") _ false rfl rfl _ _ _ rfl (by norm_num)

/-- an interval of a circular distribution around π -/
example : member (3, -3) = Set.Icc 3 Real.pi ∪ Set.Icc (-Real.pi) (-3) := by
  rw [member, if_neg (by norm_num)]

/-- a discrete distribution that is nearly always 0 -/
example : Gives (pointInterval ⟨fun l => l.map fun _ => 0, fun _ => (0, 0), fun _ => (0, 0), 0⟩ ⟨"hdi", 0.94⟩ none
    (some [0.5]) false) fun ms => covered false 4 ms = Set.Icc 0 Real.pi ∪ Set.Icc (-Real.pi) 0 ∧
      covered false 4 ms ≠ member (0, 0) :=
  single_value_fails _ ⟨"hdi", 0.94⟩ none false (fun _ => (0, 0)) (Or.inr ⟨rfl, rfl⟩) 0.5 0 rfl

end Verif.Props
