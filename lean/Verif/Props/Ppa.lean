import Verif.Lemmas.Ppa

/-!
# C47, C48, C49: the prior predictive assistant; C50: aligned samples
-/

set_option linter.unusedSimpArgs false
set_option linter.unusedVariables false

namespace Verif.Props
open Verif Verif.Ppa

/-- a running session: a successful start followed by any number of presses of "carry on" -/
def Reachable (env : Env) (st : State) : Prop :=
  ∃ first target l rs, (∀ l : List ℕ, l ≠ [] → first l ∈ l) ∧ (start env first target).2 = .ok l ∧
    st = (session env (start env first target).1 rs).2

/-! ## C47 -/

/-- All indexes displayed over a session - by the start and by every later press, in this order - are
distinct and valid, whatever is clicked, and also if some presses raise. -/
theorem ppa_no_repeats (env : Env) (first : List ℕ → ℕ) (hfirst : ∀ l, l ≠ [] → first l ∈ l)
    (target : Bool) (l : List ℕ) (hstart : (start env first target).2 = .ok l) (rs : List Round) :
    let shows := (session env (start env first target).1 rs).1
    (l ++ (shows.filterMap id).flatten).Nodup ∧
    ∀ i ∈ l ++ (shows.filterMap id).flatten, i < env.draws := by
  obtain ⟨hi, _, _, hnd, hl, _, _, _, _⟩ := start_spec env first hfirst target l hstart
  obtain ⟨_, _, hf, _⟩ := session_inv env _ hi rs
  refine ⟨List.nodup_append'.2 ⟨hnd, hf.nodup, fun x hx hx' => hf.new x hx' (hl x hx).2⟩, ?_⟩
  intro i h
  rcases List.mem_append.1 h with h | h
  · exact (hl i h).1
  · exact hf.lt i h

theorem session_append (env : Env) (st : State) (rs rs' : List Round) :
    (session env st (rs ++ rs')).2 = (session env (session env st rs).2 rs').2 := by
  induction rs generalizing st with
  | nil => rfl
  | cons r rs ih => exact ih _

/-- No selection is ever forgotten, and what has been clicked is selected. -/
theorem ppa_selection_grows (env : Env) (st : State) (h : Reachable env st) (rs : List Round) :
    st.selected ⊆ (session env st rs).2.selected := by
  obtain ⟨first, target, l, rs', hfirst, hs, rfl⟩ := h
  obtain ⟨hi, _⟩ := start_spec env first hfirst target l hs
  exact (session_inv env _ (session_inv env _ hi rs').1 rs).2.1.2

/-- pressing "carry on" with samples clicked selects all of them, whatever happens afterwards in the same
press -/
theorem ppa_clicks_selected (env : Env) (st mid : State) (h : Reachable env st) (r : Round)
    (hm : takeClicked env r st = .ok mid) (p i : ℕ) (hp : p ∈ r.clicked)
    (hi : st.axes[p]? = some (some i)) : i ∈ (carryOn env r st).1.selected := by
  obtain ⟨first, target, l, rs, hfirst, hs, rfl⟩ := h
  have hinv := (session_inv env _ (start_spec env first hfirst target l hs).1 rs).1
  set st := (session env (start env first target).1 rs).2
  have hmid : i ∈ mid.selected := by
    unfold takeClicked at hm
    rw [if_neg (List.ne_nil_of_mem hp)] at hm
    cases ht : r.clicked.mapM (titleOf st.axes) with
    | error e => rw [ht] at hm; simp at hm
    | ok titles =>
      have hin : i ∈ titles := by
        clear hm
        generalize r.clicked = ps at hp ht
        induction ps generalizing titles with
        | nil => simp at hp
        | cons q qs ih =>
          rw [List.mapM_cons] at ht
          cases hq : titleOf st.axes q with
          | error e => simp [hq] at ht
          | ok t =>
            cases hqs : qs.mapM (titleOf st.axes) with
            | error e => simp [hq, hqs] at ht
            | ok ts =>
              simp [hq, hqs] at ht
              subst ht
              rcases List.mem_cons.1 hp with rfl | hp
              · simp [titleOf, hi] at hq; simp [hq]
              · exact List.mem_cons_of_mem _ (ih ts hp hqs)
      rw [ht] at hm
      simp only [Except.ok_bind', Except.pure_eq] at hm
      injection hm with hm
      subst hm
      simp [collectMore, (r.shuffle_perm _).mem_iff, hin]
  obtain ⟨him, _⟩ := takeClicked_inv env r st mid hinv hm
  obtain ⟨hik, hgk, _⟩ := keepSampling_spec env mid him
  unfold carryOn
  rw [hm]
  dsimp only
  split_ifs
  · exact hgk.2 hmid
  · have := (initFalse_spec env r.first r.first_mem _ hik).2.1.2 (hgk.2 hmid)
    cases hres : (initSubsamples env r.first (keepSampling env mid).1 false).2 <;> exact this

/-- `n` constant samples 0, 1, 2, … without boundaries -/
noncomputable def plain (n : ℕ) : Env where
  draws := n
  width := 0
  sample := fun i _ => i
  lower := ⊥
  upper := ⊤
  order := fun _ => List.range n
  order_perm := fun _ => .refl _

/-- always the first candidate -/
def headOf (l : List ℕ) : ℕ := l.headD 0

theorem headOf_mem (l : List ℕ) (h : l ≠ []) : headOf l ∈ l := by
  cases l with
  | nil => simp at h
  | cons a l => simp [headOf]

theorem plain_excluded (n : ℕ) : (plain n).excluded = ∅ := by
  classical
  ext x
  simp only [Env.excluded, Finset.mem_filter, Finset.notMem_empty, iff_false, not_and]
  intro _
  rw [outside_iff]
  intro j
  simp [plain]

/-- with nine or more samples and no boundaries the session starts with nine of them -/
theorem plain_start (n : ℕ) (h : 9 ≤ n) : ∃ l, (start (plain n) headOf false).2 = .ok l ∧
    l.length = 9 ∧ (start (plain n) headOf false).1.shown = l.toFinset ∧ l.Nodup ∧
    (∀ x ∈ l, x < n) ∧ (start (plain n) headOf false).1.axes = l.map some := by
  have hu : unseen (plain n) ((∅ : Finset ℕ) ∪ (plain n).excluded) = Finset.range n := by
    rw [plain_excluded]; simp [unseen, plain]
  have hcard : (unseen (plain n) ((∅ : Finset ℕ) ∪ (plain n).excluded)).card = n := by rw [hu]; simp
  rcases init_cases (plain n) headOf headOf_mem ⟨∅, ∅, [], ∅, [], []⟩ (by simp) false with ⟨h0, _⟩ |
    ⟨_, h, _⟩ | ⟨_, _, h9, l, hl, hlen, hini⟩ | ⟨_, _, h9, _⟩
  · dsimp only at h0; rw [h0] at hcard; simp at hcard; omega
  · simp at h
  · obtain ⟨ext, h1, h2, h3⟩ := hl
    simp only [List.nil_append] at h1
    subst h1
    have hs9 : ⌈Real.sqrt (9 : ℕ)⌉₊ = 3 := by
      have : Real.sqrt ((9 : ℕ) : ℝ) = 3 := by
        rw [show ((9 : ℕ) : ℝ) = 3 ^ 2 by norm_num]; exact Real.sqrt_sq (by norm_num)
      rw [this]; norm_num
    refine ⟨l, ?_, hlen, ?_, h2, fun x hx => (h3 x hx).1, ?_⟩
    · unfold start; rw [hini]; dsimp only
      rw [if_neg (by rintro rfl; simp at hlen)]
    · unfold start; rw [hini]; dsimp only
      rw [plain_excluded]; simp
    · unfold start; rw [hini]; dsimp only
      rw [hlen, hs9, plotTitles]
      simp only [List.length_replicate, hlen]
      rw [List.take_of_length_le (by simp [hlen])]
      simp
  · dsimp only at h9; rw [hcard] at h9; omega

/-- a press without clicks -/
def idle : Round := ⟨[], id, fun _ => .refl _, fun _ _ => false, headOf, headOf_mem⟩

/-- the hypotheses of the theorems above are met, e.g. by twenty samples -/
example : ∃ l, (start (plain 20) headOf false).2 = .ok l := by
  obtain ⟨l, h, _⟩ := plain_start 20 (by norm_num); exact ⟨l, h⟩

/-! ## C48 -/

theorem reachable_inv {env : Env} {st : State} (h : Reachable env st) :
    Inv env st ∧ env.excluded ⊆ st.shown := by
  obtain ⟨first, target, l, rs, hfirst, hs, rfl⟩ := h
  obtain ⟨hi, he, _⟩ := start_spec env first hfirst target l hs
  obtain ⟨h1, h2, _⟩ := session_inv env _ hi rs
  exact ⟨h1, he.trans h2.1⟩

/-- clicking axes that carry a sample can always be read back -/
theorem ppa_clicks_read (env : Env) (st : State) (r : Round)
    (h : ∀ p ∈ r.clicked, ∃ i, st.axes[p]? = some (some i)) : ∃ mid, takeClicked env r st = .ok mid := by
  by_cases hc : r.clicked = []
  · exact ⟨st, by rw [takeClicked, if_pos hc]⟩
  · obtain ⟨ts, hts⟩ := mapM_titleOf_ok st.axes r.clicked h
    rw [takeClicked, if_neg hc, hts]
    exact ⟨_, rfl⟩

/-- Partial: once the clicks are read (state `mid`), the press shows the all-seen message exactly when no
sample is left, and shows at least one sample if at least nine are left.  Missing: between one and eight
samples left and nothing similar to display, see `ppa_stuck`. -/
theorem ppa_continues_partial (env : Env) (st mid : State) (h : Reachable env st) (r : Round)
    (hm : takeClicked env r st = .ok mid) :
    ((carryOn env r st).2 = .ok [] ↔ ∀ i < env.draws, i ∈ mid.shown) ∧
    (9 ≤ (Finset.range env.draws \ mid.shown).card →
      ∃ l, l ≠ [] ∧ (carryOn env r st).2 = .ok l) := by
  obtain ⟨hi, he⟩ := reachable_inv h
  obtain ⟨h1, h2, h3⟩ := carryOn_outcome env r st mid hi he hm
  have hall : (∀ i < env.draws, i ∈ mid.shown) ↔ unseen env mid.shown = ∅ := by
    simp [unseen, Finset.sdiff_eq_empty_iff_subset, Finset.subset_iff]
  constructor
  · rw [hall]
    refine ⟨fun h => ?_, h1⟩
    by_contra hne
    by_cases hk : (keepSampling env mid).2 = []
    · have := h3 hne hk
      split_ifs at this
      · obtain ⟨l, hl, hl'⟩ := this
        rw [h] at hl'; injection hl' with hl'; subst hl'; simp at hl
      · rw [h] at this; simp at this
    · obtain ⟨l, hl, hl'⟩ := h2 hne hk
      rw [h] at hl'; injection hl' with hl'; exact hl hl'.symm
  · intro h9
    have hne : unseen env mid.shown ≠ ∅ := by
      intro h0
      have : (Finset.range env.draws \ mid.shown).card = 0 := by
        rw [show Finset.range env.draws \ mid.shown = ∅ from h0]; rfl
      omega
    by_cases hk : (keepSampling env mid).2 = []
    · have := h3 hne hk
      rw [if_pos (show 9 ≤ (unseen env mid.shown).card from h9)] at this
      obtain ⟨l, hl, hl'⟩ := this
      exact ⟨l, by rintro rfl; simp at hl, hl'⟩
    · exact h2 hne hk

/-- negation: pressing "carry on" without a selection fails whenever between one and eight samples are
left -/
theorem ppa_stuck (env : Env) (st : State) (h : Reachable env st) (r : Round) (hr : r.clicked = [])
    (hc : st.choices = []) (h1 : Finset.range env.draws \ st.shown ≠ ∅)
    (h9 : (Finset.range env.draws \ st.shown).card < 9) :
    (carryOn env r st).2 = .error .valueError := by
  obtain ⟨hi, he⟩ := reachable_inv h
  have := (carryOn_outcome env r st st hi he (by rw [takeClicked, if_pos hr])).2.2 h1
    (by simp [keepSampling, hc])
  rwa [if_neg (show ¬ 9 ≤ (unseen env st.shown).card by unfold unseen; omega)] at this

/-- for instance with ten samples, at the very first press -/
theorem ppa_stuck_ten : Reachable (plain 10) (start (plain 10) headOf false).1 ∧
    (carryOn (plain 10) idle (start (plain 10) headOf false).1).2 = .error .valueError := by
  obtain ⟨l, h1, h2, h3, h4, h5, _⟩ := plain_start 10 (by norm_num)
  have hr : Reachable (plain 10) (start (plain 10) headOf false).1 :=
    ⟨headOf, false, l, [], headOf_mem, h1, rfl⟩
  have hcard : (Finset.range 10 \ l.toFinset).card = 1 := by
    rw [Finset.card_sdiff_of_subset, List.toFinset_card_of_nodup h4, h2]
    · simp
    · intro x hx; simpa using h5 x (List.mem_toFinset.1 hx)
  refine ⟨hr, ppa_stuck _ _ hr idle rfl ?_ ?_ ?_⟩
  · exact (start_spec _ headOf headOf_mem false l h1).2.2.2.2.2.2.1
  · rw [h3]; intro h
    have : (Finset.range 10 \ l.toFinset).card = 0 := by
      rw [show Finset.range 10 \ l.toFinset = ∅ from h]; rfl
    omega
  · rw [h3]
    show (Finset.range 10 \ l.toFinset).card < 9
    omega

/-- and with twenty samples the first press displays nine more -/
example : ∃ l, l ≠ [] ∧ (carryOn (plain 20) idle (start (plain 20) headOf false).1).2 = .ok l := by
  obtain ⟨l, h1, h2, h3, h4, h5, _⟩ := plain_start 20 (by norm_num)
  refine (ppa_continues_partial _ _ _ ⟨headOf, false, l, [], headOf_mem, h1, rfl⟩ idle
    (by rw [takeClicked]; rfl)).2 ?_
  show 9 ≤ (Finset.range 20 \ (start (plain 20) headOf false).1.shown).card
  rw [h3, Finset.card_sdiff_of_subset, List.toFinset_card_of_nodup h4, h2]
  · simp
  · intro x hx; simpa using h5 x (List.mem_toFinset.1 hx)

/-- negation: axes left over after a round are blank, and clicking one of them fails -/
theorem ppa_blank_click (env : Env) (st : State) (r r' : Round) (l : List ℕ) (hr : r.clicked ≠ [])
    (h : (carryOn env r st).2 = .ok l) (hl : l ≠ []) (p : ℕ) (hp : l.length ≤ p) (hp' : p < st.axes.length)
    (hr' : r'.clicked = [p]) : (carryOn env r' (carryOn env r st).1).2 = .error .valueError := by
  have hax : (carryOn env r st).1.axes[p]? = some none := by
    unfold carryOn at h ⊢
    cases ht : takeClicked env r st with
    | error e => rw [ht] at h; simp at h
    | ok mid =>
      rw [ht] at h
      dsimp only at h ⊢
      have hm : mid.axes = st.axes.map fun _ => none := by
        rcases takeClicked_spec env r st mid ht with ⟨h, _⟩ | ⟨_, _, _, _, _, _, _, _, h⟩
        · exact absurd h hr
        · exact h
      have key : (plotTitles mid.axes l)[p]? = some none := by
        rw [plotTitles, hm, List.getElem?_append_right (by simp; omega)]
        simp only [List.length_take, List.length_map, List.getElem?_drop]
        rw [List.getElem?_eq_getElem (by simp; omega)]
        simp
      split_ifs at h ⊢ with hk
      · simp only [Except.ok.injEq] at h; subst h; exact key
      · cases hres : (initSubsamples env r.first (keepSampling env mid).1 false).2 with
        | error e => rw [hres] at h; simp at h
        | ok l' =>
          rw [hres] at h
          simp only [Except.ok.injEq] at h; subst h
          simpa [hl] using key
  generalize (carryOn env r st).1 = st' at hax
  unfold carryOn
  have : takeClicked env r' st' = .error .valueError := by
    rw [takeClicked, if_neg (by simp [hr']), hr']
    simp [titleOf, hax]
  rw [this]

/-! ## C49 -/

/-- Partial: without a target, every value of every displayed sample and of every selected sample
(clicked or added automatically) lies within the boundaries. -/
theorem ppa_boundaries_partial (env : Env) (first : List ℕ → ℕ) (hfirst : ∀ l, l ≠ [] → first l ∈ l)
    (l : List ℕ) (hstart : (start env first false).2 = .ok l) (rs : List Round) :
    let out := session env (start env first false).1 rs
    ∀ i, i ∈ l ∨ i ∈ (out.1.filterMap id).flatten ∨ i ∈ out.2.selected →
      ∀ j, env.lower ≤ (env.sample i j : EReal) ∧ (env.sample i j : EReal) ≤ env.upper := by
  intro out i hi
  rw [← outside_iff]
  obtain ⟨hinv, he, _, _, _, hsel, hch, hax, ho⟩ := start_spec env first hfirst false l hstart
  have hw : Within env (start env first false).1 :=
    ⟨he, by simp [hsel], by simp [hch], fun x hx => ho rfl x (hax x hx)⟩
  rcases hi with hi | hi | hi
  · exact ho rfl i hi
  · exact (session_inv env _ hinv rs).2.2.2 he i hi
  · exact (session_within env _ hinv hw rs).selected i hi

/-- with or without a target, everything displayed after the start is within the boundaries -/
theorem ppa_boundaries_later (env : Env) (first : List ℕ → ℕ) (hfirst : ∀ l, l ≠ [] → first l ∈ l)
    (target : Bool) (l : List ℕ) (hstart : (start env first target).2 = .ok l) (rs : List Round) :
    ∀ i ∈ ((session env (start env first target).1 rs).1.filterMap id).flatten,
      ∀ j, env.lower ≤ (env.sample i j : EReal) ∧ (env.sample i j : EReal) ≤ env.upper := by
  intro i hi
  rw [← outside_iff]
  obtain ⟨hinv, he, _⟩ := start_spec env first hfirst target l hstart
  exact (session_inv env _ hinv rs).2.2.2 he i hi

/-- two constant samples 0 and 5, values above 1 excluded -/
noncomputable def twoSamples : Env where
  draws := 2
  width := 0
  sample := fun i _ => 5 * i
  lower := ⊥
  upper := (1 : ℝ)
  order := fun _ => [0, 1]
  order_perm := fun _ => .refl _

/-- negation: with a target the first display ignores the boundaries (and skips the sample nearest to the
target) -/
theorem ppa_target_ignores_boundaries :
    (start twoSamples headOf true).2 = .ok [1] ∧ twoSamples.outside 1 ∧ ¬ twoSamples.outside 0 := by
  classical
  have h0 : ¬ twoSamples.outside 0 := by
    rw [outside_iff]; intro j; simp [twoSamples]
  have h1 : twoSamples.outside 1 := by
    by_contra h
    rw [outside_iff] at h
    have := (h 0).2
    have h5 : ((5 : ℝ) : EReal) ≤ ((1 : ℝ) : EReal) := by simpa [twoSamples] using this
    have : (5 : ℝ) ≤ 1 := by exact_mod_cast h5
    norm_num at this
  refine ⟨?_, h1, h0⟩
  have hT : targetRounds twoSamples 9 none [] = [1] := by rfl
  have hex : twoSamples.excluded = {1} := by
    ext x
    simp only [Env.excluded, Finset.mem_filter, Finset.mem_range, Finset.mem_singleton]
    show x < 2 ∧ _ ↔ _
    constructor
    · rintro ⟨hx, ho⟩
      interval_cases x
      · exact absurd ho h0
      · rfl
    · rintro rfl; exact ⟨by norm_num, h1⟩
  unfold start initSubsamples
  simp only [hT, hex]
  rw [if_neg (by show ¬ _ = 2; simp)]
  simp

/-- nine samples within the boundaries start a session -/
example : ∃ l, (start (plain 9) headOf false).2 = .ok l := by
  obtain ⟨l, h, _⟩ := plain_start 9 le_rfl; exact ⟨l, h⟩

/-! ## C50 -/

private theorem filter_zip {V : Type} (names : List String) (values : List V) (hn : names.Nodup)
    (hlen : values.length = names.length) (j : ℕ) (name : String) (hj : names[j]? = some name) :
    ∃ v, values[j]? = some v ∧ ((names.zip values).filter fun p => p.1 = name).map Prod.snd = [v] := by
  induction names generalizing values j with
  | nil => simp at hj
  | cons a as ih =>
    cases values with
    | nil => simp at hlen
    | cons v vs =>
      obtain ⟨ha, has⟩ := List.nodup_cons.1 hn
      cases j with
      | zero =>
        simp at hj; subst hj
        refine ⟨v, rfl, ?_⟩
        have : (as.zip vs).filter (fun p => p.1 = a) = [] := by
          rw [List.filter_eq_nil_iff]
          rintro ⟨x, y⟩ hxy
          have := (List.of_mem_zip hxy).1
          simp only [decide_eq_true_eq]
          rintro rfl; exact ha this
        simp [this]
      | succ j =>
        simp at hj
        obtain ⟨w, hw, hf⟩ := ih vs has (by simpa using hlen) j hj
        have hne : a ≠ name := by rintro rfl; exact ha (List.mem_of_getElem? hj)
        exact ⟨w, by simpa using hw, by simp [hne, hf]⟩

/-- each variable's samples are its values in the successive evaluations -/
theorem samplesOf_eq {V : Type} (names : List String) (evals : List (List V)) (hn : names.Nodup)
    (hlen : ∀ values ∈ evals, values.length = names.length) (j : ℕ) (name : String)
    (hj : names[j]? = some name) :
    (samplesOf names evals name).map some = evals.map fun values => values[j]? := by
  induction evals with
  | nil => rfl
  | cons e es ih =>
    obtain ⟨v, hv, hf⟩ := filter_zip names e hn (hlen e (by simp)) j name hj
    have hcons : samplesOf names (e :: es) name = v :: samplesOf names es name := by
      simp only [samplesOf, List.flatMap_cons, hf, List.singleton_append]
    rw [hcons, List.map_cons, List.map_cons, ih fun x hx => hlen x (by simp [hx]), hv]

/-- Partial (distinct names in the return statement): the `k`-th prior predictive sample and the `k`-th prior sample of every variable are the components
of the value returned by the `k`-th evaluation of the model. -/
theorem samples_aligned_partial {V : Type} (names : List String) (evals : List (List V)) (hn : names.Nodup)
    (hne : names ≠ []) (hlen : ∀ values ∈ evals, values.length = names.length) :
    Gives (priorPpSamples names evals) fun r =>
      (r.1.map some = evals.map fun values => values.getLast?) ∧
      r.2.map Prod.fst = names.dropLast ∧
      ∀ (j : ℕ) (name : String) (column : List V), r.2[j]? = some (name, column) →
        names[j]? = some name ∧ column.map some = evals.map fun values => values[j]? := by
  obtain ⟨obs, hobs⟩ : ∃ o, names.getLast? = some o := by
    cases h : names.getLast? with
    | none => simp at h; exact absurd h hne
    | some o => exact ⟨o, rfl⟩
  have hpos : 0 < names.length := List.length_pos_iff.2 hne
  have hlast : names[names.length - 1]? = some obs := by rw [← hobs, List.getLast?_eq_getElem?]
  unfold priorPpSamples
  rw [hobs]
  simp only [gives_ok]
  refine ⟨?_, by simp [Function.comp_def], ?_⟩
  · rw [samplesOf_eq names evals hn hlen _ obs hlast]
    refine List.map_congr_left fun values hv => ?_
    rw [List.getLast?_eq_getElem?, hlen values hv]
  · intro j name column h
    rw [List.getElem?_map, Option.map_eq_some_iff] at h
    obtain ⟨a, ha, hac⟩ := h
    injection hac with h1 h2
    subst h1
    have hjl : j < names.dropLast.length := (List.getElem?_eq_some_iff.1 ha).1
    have hj : names[j]? = some a := by
      rw [List.length_dropLast] at hjl
      rw [← ha, List.getElem?_dropLast, if_pos (by omega)]
    refine ⟨hj, ?_⟩
    have hao : a ≠ obs := by
      rintro rfl
      have := (List.getElem?_inj (by simp at hjl; omega) hn).1 (hj.trans hlast.symm)
      simp at hjl; omega
    rw [if_neg hao] at h2
    subst h2
    exact samplesOf_eq names evals hn hlen j a hj

example : priorPpSamples ["a", "b", "y"] [[1, 2, 3], [4, 5, 6]] =
    .ok ([3, 6], [("a", [1, 4]), ("b", [2, 5])]) := by decide

private theorem lookup_getElem {V : Type} (d : List (String × V)) (k : String) (h : k ∈ d.map Prod.fst) :
    ∃ (v : V) (j : ℕ), d.lookup k = some v ∧ d[j]? = some (k, v) := by
  induction d with
  | nil => simp at h
  | cons p d ih =>
    obtain ⟨a, b⟩ := p
    by_cases hka : k = a
    · subst hka; exact ⟨b, 0, by simp, rfl⟩
    · have hd : k ∈ d.map Prod.fst := by simpa [hka] using h
      obtain ⟨v, j, h1, h2⟩ := ih hd
      have hbeq : (k == a) = false := by simpa using hka
      exact ⟨v, j + 1, by simp [List.lookup_cons, hbeq, h1], by simpa using h2⟩

private theorem mapM_rows {V : Type} (column : List V) (selected : List ℕ) (g : ℕ → Option V)
    (h : ∀ i ∈ selected, ∃ v, column[i]? = some v ∧ g i = some v) :
    ∃ rows, selected.mapM (row column) = .ok rows ∧ rows.map some = selected.map g := by
  induction selected with
  | nil => exact ⟨[], rfl, rfl⟩
  | cons a as ih =>
    obtain ⟨w, hw, hw'⟩ := h a (by simp)
    obtain ⟨rows, hr1, hr2⟩ := ih fun x hx => h x (by simp [hx])
    refine ⟨w :: rows, ?_, by simp [hr2, hw']⟩
    rw [List.mapM_cons, hr1, row, hw]; rfl

/-- Partial (distinct names): selecting prior predictive samples selects the prior samples of the same evaluations: row `m` of the
selected column of the `j`-th returned variable is the `j`-th value of evaluation number `selected[m]`. -/
theorem selection_aligned_partial {V : Type} (names : List String) (evals : List (List V)) (hn : names.Nodup)
    (hlen : ∀ values ∈ evals, values.length = names.length) (selected : List ℕ)
    (hsel : ∀ i ∈ selected, i < evals.length) (keys : List String)
    (hkeys : ∀ k ∈ keys, k ∈ names.dropLast) (pp : List V) (prior : List (String × List V))
    (hp : priorPpSamples names evals = .ok (pp, prior)) :
    Gives (selectPrior selected prior keys) fun sub =>
      sub.map Prod.fst = keys ∧
      ∀ name rows, (name, rows) ∈ sub → ∃ j : ℕ, names[j]? = some name ∧
        rows.map some = selected.map fun i => evals[i]?.bind fun values => values[j]? := by
  have hne : names ≠ [] := by
    rintro rfl; simp [priorPpSamples] at hp
  obtain ⟨r, hr, h1, h2, h3⟩ := samples_aligned_partial names evals hn hne hlen
  rw [hp] at hr; injection hr with hr; subst hr
  dsimp only at h1 h2 h3
  induction keys with
  | nil => exact ⟨[], rfl, rfl, by simp⟩
  | cons k ks ih =>
    obtain ⟨sub, hs, hs1, hs2⟩ := ih fun x hx => hkeys x (by simp [hx])
    have hk : k ∈ prior.map Prod.fst := by rw [h2]; exact hkeys k (by simp)
    obtain ⟨column, j, hc, hj⟩ := lookup_getElem prior k hk
    obtain ⟨hn1, hcol⟩ := h3 j k column hj
    have hlenc : column.length = evals.length := by
      have := congrArg List.length hcol; simpa using this
    have hget : ∀ i < evals.length, ∃ v, column[i]? = some v ∧
        evals[i]?.bind (fun values => values[j]?) = some v := by
      intro i hi
      have hi' : i < column.length := by omega
      refine ⟨column[i], List.getElem?_eq_getElem hi', ?_⟩
      have h := congrArg (fun l => l[i]?) hcol
      simp only [List.getElem?_map, List.getElem?_eq_getElem hi', List.getElem?_eq_getElem hi,
        Option.map_some] at h
      rw [List.getElem?_eq_getElem hi, Option.bind_some]
      exact (Option.some.inj h).symm
    have hrows := mapM_rows column selected (fun i => evals[i]?.bind fun values => values[j]?)
      fun i hi => hget i (hsel i hi)
    obtain ⟨rows, hr1, hr2⟩ := hrows
    refine ⟨(k, rows) :: sub, ?_, by simp [hs1], ?_⟩
    · unfold selectPrior at hs ⊢
      have : selectOne selected prior k = .ok (k, rows) := by
        simp only [selectOne, fetch, hc, hr1, Except.ok_bind', Except.pure_eq]
      rw [List.mapM_cons, hs, this]; rfl
    · intro name rows' hm
      rcases List.mem_cons.1 hm with hm | hm
      · injection hm with ha hb
        subst ha hb
        exact ⟨j, hn1, hr2⟩
      · exact hs2 name rows' hm

/-- a variable of the model without prior samples is a KeyError, a selected number beyond the samples an IndexError -/
theorem select_prior_missing {V : Type} (selected : List ℕ) (prior : List (String × List V)) (name : String) (keys : List String) :
    (prior.lookup name = none → selectPrior selected prior (name :: keys) = .error .keyError) ∧
    (∀ column, prior.lookup name = some column → ∀ i rest, selected = i :: rest → column.length ≤ i →
      selectPrior selected prior (name :: keys) = .error .indexError) := by
  constructor
  · intro h
    simp [selectPrior, selectOne, fetch, h, List.mapM_cons, Except.error_bind']
  · rintro column h i rest rfl hi
    simp [selectPrior, selectOne, fetch, h, List.mapM_cons, row, List.getElem?_eq_none hi, Except.error_bind', Except.ok_bind']

example : selectPrior [1, 0] [("a", [1, 4]), ("b", [2, 5])] ["b", "a"] =
    .ok [("b", [5, 2]), ("a", [4, 1])] := by decide

/-- a model returning the same variable twice gets two prior samples of it per evaluation, so the samples
are no longer aligned -/
theorem repeated_variable_misaligned :
    priorPpSamples ["a", "a", "y"] [[1, 1, 10], [2, 2, 20]] =
      .ok ([10, 20], [("a", [1, 1, 2, 2]), ("a", [1, 1, 2, 2])]) := by decide

end Verif.Props
