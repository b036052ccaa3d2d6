import Verif.Spec.Rc
import Mathlib.Data.List.DropRight
import Mathlib.Tactic

set_option linter.unusedSimpArgs false

namespace Verif.Rc
open Verif Verif.Spec

theorem strip_eq (env : PyEnv) (l : List Char) :
    strip env l = (l.dropWhile env.isSpace).rdropWhile env.isSpace := rfl

theorem dropWhile_spaces {sp : Char → Bool} {a m : List Char} (ha : ∀ c ∈ a, sp c = true) :
    (a ++ m).dropWhile sp = m.dropWhile sp := by
  induction a with
  | nil => rfl
  | cons x xs ih =>
    have hx : sp x = true := ha x (by simp)
    simp only [List.cons_append, List.dropWhile_cons, hx, if_true]
    exact ih fun c hc => ha c (by simp [hc])

theorem dropWhile_head {sp : Char → Bool} {m : List Char} (h : ∀ c ∈ m.head?, sp c = false) :
    m.dropWhile sp = m := by
  cases m with
  | nil => rfl
  | cons x xs => simp [List.dropWhile_cons, h x (by simp)]

theorem dropWhile_all {sp : Char → Bool} {a : List Char} (ha : ∀ c ∈ a, sp c = true) :
    a.dropWhile sp = [] := by
  have := dropWhile_spaces (m := []) ha
  simpa using this

theorem rdropWhile_spaces {sp : Char → Bool} {m b : List Char} (hb : ∀ c ∈ b, sp c = true) :
    (m ++ b).rdropWhile sp = m.rdropWhile sp := by
  unfold List.rdropWhile
  rw [List.reverse_append, dropWhile_spaces]
  intro c hc; exact hb c (by simpa using hc)

theorem rdropWhile_last {sp : Char → Bool} {m : List Char} (h : ∀ c ∈ m.getLast?, sp c = false) :
    m.rdropWhile sp = m := by
  unfold List.rdropWhile
  rw [dropWhile_head, List.reverse_reverse]
  intro c hc; exact h c (by simpa using hc)

theorem strip_of_trim (env : PyEnv) {l m : List Char} (h : Trim env.isSpace l m) :
    strip env l = m := by
  obtain ⟨a, b, rfl, ha, hb, hm, hl⟩ := h
  rw [strip_eq, List.append_assoc, dropWhile_spaces ha]
  cases m with
  | nil => simp only [List.nil_append]; rw [dropWhile_all hb]; rfl
  | cons x xs =>
    rw [dropWhile_head, rdropWhile_spaces hb, rdropWhile_last hl]
    intro c hc; exact hm c (by simpa using hc)

theorem dropWhile_split (sp : Char → Bool) (l : List Char) :
    ∃ a, l = a ++ l.dropWhile sp ∧ ∀ c ∈ a, sp c = true :=
  ⟨l.takeWhile sp, (List.takeWhile_append_dropWhile).symm, fun c hc => List.mem_takeWhile_imp hc⟩

theorem head_dropWhile (sp : Char → Bool) (l : List Char) :
    ∀ c ∈ (l.dropWhile sp).head?, sp c = false := by
  induction l with
  | nil => simp
  | cons x xs ih =>
    by_cases hx : sp x = true
    · simpa [List.dropWhile_cons, hx] using ih
    · simp [List.dropWhile_cons, hx]

theorem trim_strip (env : PyEnv) (l : List Char) : Trim env.isSpace l (strip env l) := by
  obtain ⟨a, ha, haS⟩ := dropWhile_split env.isSpace l
  set m := l.dropWhile env.isSpace with hm
  obtain ⟨b, hb, hbS⟩ := dropWhile_split env.isSpace m.reverse
  have hmb : m = strip env l ++ b.reverse := by
    have := congrArg List.reverse hb
    simpa [strip, ← hm] using this
  refine ⟨a, b.reverse, ?_, haS, ?_, ?_, ?_⟩
  · rw [List.append_assoc, ← hmb]; exact ha
  · intro c hc; exact hbS c (by simpa using hc)
  · intro c hc
    have hh := head_dropWhile env.isSpace l
    rw [← hm, hmb] at hh
    refine hh c ?_
    cases hs : strip env l with
    | nil => rw [hs] at hc; simp at hc
    | cons y ys => rw [hs] at hc; simpa using hc
  · intro c hc
    have hh := head_dropWhile env.isSpace m.reverse
    refine hh c ?_
    have : strip env l = (m.reverse.dropWhile env.isSpace).reverse := rfl
    rw [this] at hc
    simpa using hc

theorem trim_iff (env : PyEnv) (l m : List Char) : Trim env.isSpace l m ↔ strip env l = m :=
  ⟨strip_of_trim env, fun h => h ▸ trim_strip env l⟩

theorem isText_iff (line t : List Char) : IsText line t ↔ line.takeWhile (· ≠ '#') = t := by
  constructor
  · rintro ⟨ht, rfl | ⟨r, rfl⟩⟩
    · rw [List.takeWhile_eq_self_iff]; intro c hc; simp; rintro rfl; exact ht hc
    · rw [List.takeWhile_append_of_pos]
      · simp
      · intro c hc; simp; rintro rfl; exact ht hc
  · rintro rfl
    refine ⟨fun h => by simpa using List.mem_takeWhile_imp h, ?_⟩
    have h1 := List.takeWhile_append_dropWhile (p := fun c => decide (c ≠ '#')) (l := line)
    cases hd : line.dropWhile (fun c => decide (c ≠ '#')) with
    | nil => left; rw [hd, List.append_nil] at h1; exact h1.symm
    | cons y ys =>
      right
      have := head_dropWhile (fun c => decide (c ≠ '#')) line y (by rw [hd]; rfl)
      simp at this
      subst this
      exact ⟨ys, by rw [hd] at h1; exact h1.symm⟩

theorem strip_nil_iff (env : PyEnv) (t : List Char) :
    strip env t = [] ↔ ∀ c ∈ t, env.isSpace c = true := by
  rw [← trim_iff]
  constructor
  · rintro ⟨a, b, rfl, ha, hb, -⟩ c hc
    simp only [List.append_nil, List.mem_append] at hc
    exact hc.elim (ha c) (hb c)
  · intro h; exact ⟨t, [], by simp, h, by simp, by simp, by simp⟩

theorem mem_strip (env : PyEnv) {t : List Char} {c : Char} (hc : env.isSpace c = false) :
    c ∈ strip env t ↔ c ∈ t := by
  obtain ⟨a, b, h, ha, hb, -⟩ := trim_strip env t
  constructor
  · intro hm; rw [h]; simp [hm]
  · intro hm; rw [h] at hm
    simp only [List.mem_append] at hm
    rcases hm with (hm | hm) | hm
    · have := ha c hm; simp [hc] at this
    · exact hm
    · have := hb c hm; simp [hc] at this

theorem strip_colon (env : PyEnv) {a b : List Char} :
    strip env (a ++ ':' :: b) = a.dropWhile env.isSpace ++ ':' :: b.rdropWhile env.isSpace := by
  have hsp := env.space_colon
  have h1 : ∀ a : List Char, (a ++ ':' :: b).dropWhile env.isSpace =
      a.dropWhile env.isSpace ++ ':' :: b := by
    intro a
    induction a with
    | nil => simp [List.dropWhile_cons, hsp]
    | cons x xs ih =>
      by_cases hx : env.isSpace x = true
      · simp [List.dropWhile_cons, hx, ih]
      · simp [List.dropWhile_cons, hx]
  have h2 : ∀ a : List Char, (a ++ ':' :: b).rdropWhile env.isSpace =
      a ++ ':' :: b.rdropWhile env.isSpace := by
    intro a
    unfold List.rdropWhile
    rw [List.reverse_append, List.reverse_cons, List.append_assoc]
    have h3 : ∀ r : List Char, (r ++ ([':'] ++ a.reverse)).dropWhile env.isSpace =
        r.dropWhile env.isSpace ++ ([':'] ++ a.reverse) := by
      intro r
      induction r with
      | nil => simp [List.dropWhile_cons, hsp]
      | cons x xs ih =>
        by_cases hx : env.isSpace x = true
        · simp only [List.cons_append, List.dropWhile_cons, hx, if_true]; exact ih
        · simp [List.dropWhile_cons, hx]
    rw [h3]; simp
  rw [strip_eq, h1, h2]

theorem strip_dropWhile (env : PyEnv) (a : List Char) :
    strip env (a.dropWhile env.isSpace) = strip env a := by
  rw [strip_eq, strip_eq]
  congr 1
  exact dropWhile_head (head_dropWhile _ _)

theorem strip_rdropWhile (env : PyEnv) (b : List Char) :
    strip env (b.rdropWhile env.isSpace) = strip env b := by
  obtain ⟨x, y, h, hx, hy, h3, h4⟩ := trim_strip env b
  set m := strip env b with hm
  by_cases hmn : m = []
  · have hall : ∀ c ∈ b, env.isSpace c = true := (strip_nil_iff env b).1 (by rw [← hm]; exact hmn)
    have : b.rdropWhile env.isSpace = [] := by
      unfold List.rdropWhile
      rw [dropWhile_all fun c hc => hall c (by simpa using hc)]; rfl
    rw [this, hmn]; rfl
  · have : b.rdropWhile env.isSpace = x ++ m := by
      rw [h, rdropWhile_spaces hy, rdropWhile_last]
      intro c hc
      refine h4 c ?_
      cases hl : m.getLast? with
      | none => simp at hl; exact absurd hl hmn
      | some d => simp [List.getLast?_append, hl] at hc; subst hc; simp
    rw [this]
    exact strip_of_trim env ⟨x, [], by simp, hx, by simp, h3, h4⟩

theorem readLine_blank (env : PyEnv) {c : Store} {line : List Char}
    (h : Blank env.isSpace line) : readLine env c line = .ok c := by
  obtain ⟨t, ht, hs⟩ := h
  have : stripped env line = [] := by
    unfold stripped; rw [(isText_iff _ _).1 ht]; exact (strip_nil_iff env t).2 hs
  simp [readLine, this]

theorem readLine_malformed (env : PyEnv) {c : Store} {line : List Char}
    (h : Malformed env.isSpace line) : readLine env c line = .error .typeError := by
  obtain ⟨t, ht, hc, x, hx, hsx⟩ := h
  have h1 : stripped env line = strip env t := by
    unfold stripped; rw [(isText_iff _ _).1 ht]
  have h2 : strip env t ≠ [] := by
    intro h; have := (strip_nil_iff env t).1 h x hx; simp [hsx] at this
  have h3 : ':' ∉ strip env t := fun h => hc ((mem_strip env env.space_colon).1 h)
  simp [readLine, h1, h2, h3]

theorem readLine_entry (env : PyEnv) {c : Store} {line k v : List Char}
    (h : Entry env.isSpace line k v) : readLine env c line =
      if (c (String.ofList k)).isSome then .error .typeError
      else finish (setItem env c (String.ofList k) (.str (String.ofList v))) := by
  obtain ⟨a, b, ht, hca, hk, hv⟩ := h
  have h1 : stripped env line = a.dropWhile env.isSpace ++ ':' :: b.rdropWhile env.isSpace := by
    unfold stripped; rw [(isText_iff _ _).1 ht, strip_colon]
  have hca' : ':' ∉ a.dropWhile env.isSpace := fun h =>
    hca ((List.dropWhile_sublist _).subset h)
  have h4 : (a.dropWhile env.isSpace ++ ':' :: b.rdropWhile env.isSpace).takeWhile (· ≠ ':') =
      a.dropWhile env.isSpace :=
    (by
      rw [List.takeWhile_append_of_pos]
      · simp
      · intro c hc; simp; rintro rfl; exact hca' hc)
  have h5 : (a.dropWhile env.isSpace ++ ':' :: b.rdropWhile env.isSpace).dropWhile (· ≠ ':') =
      ':' :: b.rdropWhile env.isSpace := by
    rw [dropWhile_spaces]
    · simp [List.dropWhile_cons]
    · intro c hc; simp; rintro rfl; exact hca' hc
  unfold readLine
  rw [h1]
  dsimp only
  rw [if_neg (by simp), if_pos (by simp), h4, h5]
  simp only [List.drop_succ_cons, List.drop_zero]
  rw [strip_dropWhile, strip_rdropWhile, strip_of_trim env hk, strip_of_trim env hv]

/-- every line is of one of the three kinds -/
theorem line_cases (env : PyEnv) (line : List Char) :
    Blank env.isSpace line ∨ Malformed env.isSpace line ∨ ∃ k v, Entry env.isSpace line k v := by
  set t := line.takeWhile (· ≠ '#') with ht
  have hT : IsText line t := (isText_iff _ _).2 rfl
  by_cases hc : ':' ∈ t
  · right; right
    have key : t = t.takeWhile (· ≠ ':') ++ ':' :: (t.dropWhile (· ≠ ':')).drop 1 := by
      have h1 := List.takeWhile_append_dropWhile (p := fun c => decide (c ≠ ':')) (l := t)
      cases hd : t.dropWhile (fun c => decide (c ≠ ':')) with
      | nil =>
        exfalso
        rw [hd, List.append_nil] at h1
        rw [← h1] at hc
        simpa using List.mem_takeWhile_imp hc
      | cons y ys =>
        have := head_dropWhile (fun c => decide (c ≠ ':')) t y (by rw [hd]; rfl)
        simp at this
        subst this
        rw [hd] at h1
        simpa using h1.symm
    exact ⟨strip env (t.takeWhile (· ≠ ':')), strip env ((t.dropWhile (· ≠ ':')).drop 1), _, _,
      key ▸ hT, fun h => by simpa using List.mem_takeWhile_imp h, trim_strip _ _, trim_strip _ _⟩
  · by_cases hs : ∀ c ∈ t, env.isSpace c = true
    · exact Or.inl ⟨t, hT, hs⟩
    · push Not at hs
      obtain ⟨c, hct, hcs⟩ := hs
      exact Or.inr (Or.inl ⟨t, hT, hc, c, hct, by simpa using hcs⟩)

/-! ## The store -/

theorem setItem_unknown (env : PyEnv) {s : Store} {k : String} {v : PyVal}
    (h : k ≠ "stats.ci_kind" ∧ k ≠ "stats.ci_prob" ∧ k ≠ "plots.show_plot") :
    setItem env s k v = (.error .keyError, s) := by
  simp [setItem, validator, h.1, h.2.1, h.2.2]

theorem setItem_kind (env : PyEnv) (s : Store) (v : PyVal) :
    setItem env s "stats.ci_kind" v = commit s "stats.ci_kind" (validateKind env v) := by
  simp [setItem, validator]

theorem setItem_prob (env : PyEnv) (s : Store) (v : PyVal) :
    setItem env s "stats.ci_prob" v = commit s "stats.ci_prob" (validateProbability env v) := by
  simp [setItem, validator]

theorem setItem_plot (env : PyEnv) (s : Store) (v : PyVal) :
    setItem env s "plots.show_plot" v = commit s "plots.show_plot" (validateBoolean env v) := by
  simp [setItem, validator]

/-- a stored value: assigning it again succeeds and stores the same value -/
def Stable (k : String) (v : PyVal) : Prop :=
  (k = "stats.ci_kind" ∧ (v = .str "eti" ∨ v = .str "hdi")) ∨
  (k = "stats.ci_prob" ∧ (v = .num none ∨ ∃ p : ℝ, 0 ≤ p ∧ p ≤ 1 ∧ v = .num (some (p : EReal)))) ∨
  (k = "plots.show_plot" ∧ ∃ b, v = .bool b)

theorem kind_out (env : PyEnv) {v w : PyVal} (h : validateKind env v = .ok w) :
    Stable "stats.ci_kind" w := by
  unfold validateKind at h
  dsimp only at h
  split_ifs at h with hc
  injection h with h
  subst h
  exact Or.inl ⟨rfl, hc.imp (fun h => by rw [h]) (fun h => by rw [h])⟩

theorem prob_out (env : PyEnv) {v w : PyVal} (h : validateProbability env v = .ok w) :
    ∃ x, toFloat env v = .ok x ∧ w = .num x ∧
      (x = none ∨ ∃ p : ℝ, 0 ≤ p ∧ p ≤ 1 ∧ x = some (p : EReal)) := by
  unfold validateProbability at h
  cases hf : toFloat env v with
  | error e => simp [hf] at h
  | ok x =>
    rw [hf, Except.ok_bind'] at h
    cases x with
    | none => simp at h; exact ⟨none, rfl, h.symm, Or.inl rfl⟩
    | some r =>
      simp only at h
      split_ifs at h with hr
      push Not at hr
      simp at h
      refine ⟨some r, rfl, h.symm, Or.inr ?_⟩
      induction r using EReal.rec with
      | bot => exact absurd hr.1 (by simp)
      | top => exact absurd hr.2 (by simp [← EReal.coe_one])
      | coe p => exact ⟨p, by exact_mod_cast hr.1, by exact_mod_cast hr.2, rfl⟩

theorem bool_out (env : PyEnv) {v w : PyVal} (h : validateBoolean env v = .ok w) :
    ∃ b, w = .bool b := by
  cases v <;> simp only [validateBoolean] at h <;> (try split_ifs at h) <;>
    first
      | (injection h with h; exact ⟨_, h.symm⟩)
      | (exact absurd h (by simp))

theorem setItem_cases (env : PyEnv) (s : Store) (k : String) (v : PyVal) :
    (∃ e, setItem env s k v = (.error e, s)) ∨
    ∃ w, Stable k w ∧ setItem env s k v = (.ok (), Function.update s k (some w)) := by
  by_cases h1 : k = "stats.ci_kind"
  · subst h1
    rw [setItem_kind]
    cases h : validateKind env v with
    | error e => exact Or.inl ⟨e, rfl⟩
    | ok w => exact Or.inr ⟨w, kind_out env h, rfl⟩
  by_cases h2 : k = "stats.ci_prob"
  · subst h2
    rw [setItem_prob]
    cases h : validateProbability env v with
    | error e => exact Or.inl ⟨e, rfl⟩
    | ok w =>
      obtain ⟨x, -, rfl, hx⟩ := prob_out env h
      refine Or.inr ⟨_, Or.inr (Or.inl ⟨rfl, ?_⟩), rfl⟩
      rcases hx with rfl | ⟨p, h0, h1, rfl⟩
      · exact Or.inl rfl
      · exact Or.inr ⟨p, h0, h1, rfl⟩
  by_cases h3 : k = "plots.show_plot"
  · subst h3
    rw [setItem_plot]
    cases h : validateBoolean env v with
    | error e => exact Or.inl ⟨e, rfl⟩
    | ok w => exact Or.inr ⟨w, Or.inr (Or.inr ⟨rfl, bool_out env h⟩), rfl⟩
  exact Or.inl ⟨_, setItem_unknown env ⟨h1, h2, h3⟩⟩

theorem setItem_stable (env : PyEnv) (s : Store) {k : String} {v : PyVal} (h : Stable k v) :
    setItem env s k v = (.ok (), Function.update s k (some v)) := by
  rcases h with ⟨rfl, rfl | rfl⟩ | ⟨rfl, rfl | ⟨p, h0, h1, rfl⟩⟩ | ⟨rfl, b, rfl⟩
  · rw [setItem_kind]; simp [commit, validateKind, env.strOf_str, env.lower_eti]
  · rw [setItem_kind]; simp [commit, validateKind, env.strOf_str, env.lower_hdi]
  · rw [setItem_prob]; simp [commit, validateProbability, toFloat]
  · rw [setItem_prob]
    have : ¬ ((p : EReal) < 0 ∨ (p : EReal) > 1) := by
      push Not; exact ⟨by exact_mod_cast h0, by exact_mod_cast h1⟩
    simp only [commit, validateProbability, toFloat, Except.ok_bind', this, if_false, Except.pure_eq]
  · rw [setItem_plot]; simp [commit, validateBoolean]

/-- updating with stored values overwrites exactly the keys that are there -/
theorem updateItems_items (env : PyEnv) (c : Store) (hc : ∀ k v, c k = some v → Stable k v)
    (keys : List String) (s : Store) :
    updateItems env s (items c keys) =
      (.ok (), fun k => if k ∈ keys then (c k).or (s k) else s k) := by
  induction keys generalizing s with
  | nil => simp [items, updateItems]
  | cons x xs ih =>
    cases hx : c x with
    | none =>
      have : items c (x :: xs) = items c xs := by simp [items, hx]
      rw [this, ih]
      congr 1
      funext k
      by_cases hk : k = x
      · subst hk; simp [hx]
      · simp [hk]
    | some v =>
      have : items c (x :: xs) = (x, v) :: items c xs := by simp [items, hx]
      rw [this, updateItems, setItem_stable env s (hc x v hx)]
      simp only
      rw [ih]
      congr 1
      funext k
      by_cases hk : k = x
      · subst hk; simp [hx]
      · simp [hk, Function.update_of_ne hk]

theorem updateItems_ind (env : PyEnv) (P : Store → Prop)
    (hP : ∀ s k w, P s → Stable k w → P (Function.update s k (some w)))
    (l : List (String × PyVal)) (s : Store) (hs : P s) : P (updateItems env s l).2 := by
  induction l generalizing s with
  | nil => exact hs
  | cons x xs ih =>
    obtain ⟨k, v⟩ := x
    rw [updateItems]
    rcases setItem_cases env s k v with ⟨e, h⟩ | ⟨w, hw, h⟩ <;> rw [h]
    · exact hs
    · exact ih _ (hP s k w hs hw)

theorem settled_update {s : Store} (hs : Settled True s) {k : String} {w : PyVal}
    (hw : Stable k w) : Settled True (Function.update s k (some w)) := by
  obtain ⟨hk, hkind, hprob, hplot⟩ := hs
  have hkeys : ∀ j, (∃ v, Function.update s k (some w) j = some v) ↔
      j = "stats.ci_kind" ∨ j = "stats.ci_prob" ∨ j = "plots.show_plot" := by
    intro j
    by_cases hj : j = k
    · subst hj
      have : j = "stats.ci_kind" ∨ j = "stats.ci_prob" ∨ j = "plots.show_plot" :=
        hw.imp (·.1) (Or.imp (·.1) (·.1))
      simp [this]
    · rw [Function.update_of_ne hj]; exact hk j
  rcases hw with ⟨rfl, h⟩ | ⟨rfl, h⟩ | ⟨rfl, b, rfl⟩
  · refine ⟨hkeys, ?_, ?_, ?_⟩
    · rcases h with rfl | rfl <;> simp
    · simpa using hprob
    · simpa using hplot
  · refine ⟨hkeys, ?_, ?_, ?_⟩
    · simpa using hkind
    · rcases h with rfl | ⟨p, h0, h1, rfl⟩
      · simp
      · exact Or.inl ⟨p, h0, h1, by simp⟩
    · simpa using hplot
  · refine ⟨hkeys, ?_, ?_, ?_⟩
    · simpa using hkind
    · simpa using hprob
    · exact ⟨b, by simp⟩

theorem settled_stable {s : Store} (hs : Settled True s) (k : String) (v : PyVal)
    (h : s k = some v) : Stable k v := by
  rcases (hs.keys k).1 ⟨v, h⟩ with rfl | rfl | rfl
  · rcases hs.kind with h' | h' <;> rw [h'] at h <;> injection h with h <;> subst h
    · exact Or.inl ⟨rfl, Or.inl rfl⟩
    · exact Or.inl ⟨rfl, Or.inr rfl⟩
  · rcases hs.prob with ⟨p, h0, h1, h'⟩ | ⟨-, h'⟩ <;> rw [h'] at h <;> injection h with h <;> subst h
    · exact Or.inr (Or.inl ⟨rfl, Or.inr ⟨p, h0, h1, rfl⟩⟩)
    · exact Or.inr (Or.inl ⟨rfl, Or.inl rfl⟩)
  · obtain ⟨b, h'⟩ := hs.plot
    rw [h'] at h; injection h with h; subst h
    exact Or.inr (Or.inr ⟨rfl, b, rfl⟩)

/-- `readLine` only ever adds a stable entry -/
theorem readLine_stable (env : PyEnv) {c c' : Store} {line : List Char}
    (hc : ∀ k v, c k = some v → Stable k v) (h : readLine env c line = .ok c') :
    ∀ k v, c' k = some v → Stable k v := by
  rcases line_cases env line with hb | hm | ⟨k, v, he⟩
  · rw [readLine_blank env hb] at h; injection h with h; subst h; exact hc
  · rw [readLine_malformed env hm] at h; simp at h
  · rw [readLine_entry env he] at h
    split_ifs at h
    rcases setItem_cases env c (String.ofList k) (.str (String.ofList v)) with
      ⟨e, h'⟩ | ⟨w, hw, h'⟩ <;> rw [h'] at h
    · simp [finish] at h
    · simp only [finish] at h; injection h with h; subst h
      intro j u hj
      by_cases hjk : j = String.ofList k
      · subst hjk; simp at hj; subst hj; exact hw
      · rw [Function.update_of_ne hjk] at hj; exact hc j u hj

theorem readFile_stable_aux (env : PyEnv) (lines : List (List Char)) (c c' : Store)
    (hc : ∀ k v, c k = some v → Stable k v)
    (h : lines.foldlM (readLine env) c = .ok c') : ∀ k v, c' k = some v → Stable k v := by
  induction lines generalizing c with
  | nil => simp at h; subst h; exact hc
  | cons x xs ih =>
    rw [List.foldlM_cons] at h
    cases hx : readLine env c x with
    | error e => simp [hx] at h
    | ok c1 =>
      rw [hx, Except.ok_bind'] at h
      exact ih c1 (readLine_stable env hc hx) h

theorem readFile_stable (env : PyEnv) {lines : List (List Char)} {c : Store}
    (h : readFile env lines = .ok c) : ∀ k v, c k = some v → Stable k v :=
  readFile_stable_aux env lines _ c (by simp) h

theorem setItem_text (env : PyEnv) (s : Store) (k v : String) (w : PyVal) :
    setItem env s k (.str v) = (.ok (), Function.update s k (some w)) ↔ Means env k v w := by
  have hinj : ∀ a b : PyVal, ((Except.ok (), Function.update s k (some a)) : Except Err Unit × Store) =
      (.ok (), Function.update s k (some b)) ↔ a = b := by
    intro a b
    constructor
    · intro h
      have := congrFun (congrArg Prod.snd h) k
      simpa using this
    · rintro rfl; rfl
  unfold Means
  by_cases h1 : k = "stats.ci_kind"
  · subst h1
    rw [setItem_kind]
    simp only [validateKind, env.strOf_str]
    by_cases hc : env.lower v = "eti" ∨ env.lower v = "hdi"
    · rw [if_pos hc]
      simp only [commit, hinj]
      simp only [true_and, hc, eq_comm (a := w)]
      simp
    · rw [if_neg hc]; simp [hc, commit]
  by_cases h2 : k = "stats.ci_prob"
  · subst h2
    rw [setItem_prob]
    simp only [validateProbability, toFloat]
    cases hp : env.parseFloat v with
    | none => simp [commit]
    | some x =>
      cases x with
      | none => simp only [Except.ok_bind', Except.pure_eq, commit, hinj]; simp [eq_comm]
      | some r =>
        simp only [Except.ok_bind', Except.pure_eq]
        by_cases hr : r < 0 ∨ r > 1
        · rw [if_pos hr]
          simp [commit]
          intro _ h0
          rcases hr with hr | hr
          · exact absurd h0 (not_le.2 hr)
          · exact hr
        · rw [if_neg hr]
          simp only [commit, hinj]
          push Not at hr
          simp [hr.1, hr.2, eq_comm]
  by_cases h3 : k = "plots.show_plot"
  · subst h3
    rw [setItem_plot]
    simp only [validateBoolean]
    by_cases ht : env.lower v = "true"
    · rw [if_pos ht]; simp only [commit, hinj]; simp [ht, eq_comm]
    · rw [if_neg ht]
      by_cases hf : env.lower v = "false"
      · rw [if_pos hf]; simp only [commit, hinj]; simp [ht, hf, eq_comm]
      · rw [if_neg hf]; simp [ht, hf, commit]
  rw [setItem_unknown env ⟨h1, h2, h3⟩]
  simp [h1, h2, h3]

end Verif.Rc
