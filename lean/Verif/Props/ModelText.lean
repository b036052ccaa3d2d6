import Verif.Model.Ppl
import Mathlib.Tactic

/-!
# C42: the generated model text
-/

set_option linter.unusedSimpArgs false

namespace Verif.Props
open Verif Verif.Ppl

/-- the name of the last variable that has `j` among its parents -/
def lastChild (hiers : List VarInfo) (j : ℕ) : Option String :=
  ((hiers.filter fun h => decide (j ∈ h.parents)).getLast?).map VarInfo.name

private theorem refit_ok (names : List String) (child : String) (is : List ℕ) (vars : List Decl)
    (hn : ∀ (j : ℕ) (hj : j < vars.length), names[j]? = some vars[j].name)
    (hi : ∀ i ∈ is, i < vars.length) :
    ∃ vars', refitParents names child is vars = .ok vars' ∧ vars'.length = vars.length ∧
      ∀ (j : ℕ) (hj : j < vars.length) (hj' : j < vars'.length), vars'[j].name = vars[j].name ∧
        vars'[j].refitBy = if j ∈ is then some child else vars[j].refitBy := by
  induction is generalizing vars with
  | nil => exact ⟨vars, rfl, rfl, fun j hj hj' => by simp⟩
  | cons i is ih =>
    have hiv := hi i (by simp)
    obtain ⟨vars', h1, h2, h3⟩ := ih (vars.set i ⟨vars[i].name, some child⟩) (by
      intro j hj
      simp only [List.length_set] at hj
      rw [hn j hj, List.getElem_set]
      split_ifs with h
      · subst h; rfl
      · rfl) (by intro k hk; simpa using hi k (by simp [hk]))
    refine ⟨vars', ?_, by simpa using h2, ?_⟩
    · simp only [refitParents, hn i hiv, hiv, if_true]; exact h1
    · intro j hj hj'
      obtain ⟨h4, h5⟩ := h3 j (by simpa using hj) hj'
      rw [h4, h5]
      simp only [List.getElem_set, List.mem_cons]
      by_cases hji : i = j
      · subst hji; simp
      · simp only [hji, if_false, Ne.symm hji, false_or, true_and, eq_comm]

/-- Partial: in a model that lists the variables without random parents first, and whose other variables
only depend on those, the text declares exactly the variables without random parents, each once and in
model order, and a variable with children is refitted to its last child.  Missing: other orders and
deeper hierarchies, which fail or lose declarations (below). -/
theorem write_model_partial (tops hiers : List VarInfo) (ht : ∀ v ∈ tops, v.parents = [])
    (hh : ∀ v ∈ hiers, v.parents ≠ [] ∧ ∀ i ∈ v.parents, i < tops.length) :
    ∃ decls, writeModel (tops ++ hiers) = .ok decls ∧
      decls.map Decl.name = tops.map VarInfo.name ∧
      ∀ (j : ℕ) (hj : j < decls.length), decls[j].refitBy = lastChild hiers j := by
  set names := (tops ++ hiers).map VarInfo.name with hnames
  have h1 : ∀ (ts : List VarInfo) (acc : List Decl), (∀ v ∈ ts, v.parents = []) →
      ts.foldlM (writeStep names) acc = .ok (acc ++ ts.map fun v => ⟨v.name, none⟩) := by
    intro ts
    induction ts with
    | nil => intro acc _; simp
    | cons t ts ih =>
      intro acc hts
      rw [List.foldlM_cons]
      simp only [writeStep, hts t (by simp), if_true, Except.ok_bind']
      rw [ih _ fun v hv => hts v (by simp [hv])]
      simp
  have h2 : ∀ (hs : List VarInfo), (∀ v ∈ hs, v.parents ≠ [] ∧ ∀ i ∈ v.parents, i < tops.length) →
      ∃ decls, hs.foldlM (writeStep names) (tops.map fun v => (⟨v.name, none⟩ : Decl)) = .ok decls ∧
        decls.map Decl.name = tops.map VarInfo.name ∧
        ∀ (j : ℕ) (hj : j < decls.length), decls[j].refitBy = lastChild hs j := by
    intro hs
    induction hs using List.reverseRecOn with
    | nil => intro _; exact ⟨_, rfl, by simp, fun j hj => by simp [lastChild]⟩
    | append_singleton hs h ih =>
      intro hall
      obtain ⟨decls, g1, g2, g3⟩ := ih fun v hv => hall v (by simp [hv])
      have hlen : decls.length = tops.length := by simpa using congrArg List.length g2
      obtain ⟨hp, hi⟩ := hall h (by simp)
      obtain ⟨decls', r1, r2, r3⟩ := refit_ok names h.name h.parents decls (by
        intro j hj
        have h3 : (decls.map Decl.name)[j]? = some decls[j].name := by simp [hj]
        rw [g2] at h3
        rw [hnames, List.map_append, List.getElem?_append_left (by simp; omega)]
        exact h3) (by intro i hii; rw [hlen]; exact hi i hii)
      refine ⟨decls', ?_, ?_, ?_⟩
      · rw [List.foldlM_append, g1, Except.ok_bind']
        simp only [List.foldlM_cons, List.foldlM_nil, writeStep, hp, if_false, r1, Except.ok_bind']
        rfl
      · rw [← g2]
        apply List.ext_getElem
        · simpa using r2
        · intro j hj hj'
          simp only [List.getElem_map]
          exact (r3 j (by simpa using hj') (by simpa using hj)).1
      · intro j hj
        rw [(r3 j (by omega) hj).2, g3 j (by omega)]
        simp only [lastChild, List.filter_append, List.filter_cons, List.filter_nil]
        by_cases hj' : j ∈ h.parents
        · simp [hj', List.getLast?_append]
        · simp [hj']
  unfold writeModel
  rw [List.foldlM_append, h1 tops [] ht, Except.ok_bind', List.nil_append]
  exact h2 hiers hh

/-- two population parameters, an unrelated one and two group effects -/
example : writeModel [⟨"mu", [], 1, []⟩, ⟨"tau", [], 1, []⟩, ⟨"sigma", [], 1, []⟩,
    ⟨"a", [4], 4, [0, 1]⟩, ⟨"b", [4], 4, [1]⟩] =
    .ok [⟨"mu", some "a"⟩, ⟨"tau", some "b"⟩, ⟨"sigma", none⟩] := by
  simp [writeModel, writeStep, refitParents]

/-- whenever the text is produced, it has as many declarations as there are variables without random
parents -/
theorem write_model_count (info : List VarInfo) (decls : List Decl) (h : writeModel info = .ok decls) :
    decls.length = (info.filter fun v => decide (v.parents = [])).length := by
  suffices hg : ∀ (names : List String) (info : List VarInfo) (acc decls : List Decl),
      info.foldlM (writeStep names) acc = .ok decls →
      decls.length = acc.length + (info.filter fun v => decide (v.parents = [])).length by
    simpa using hg _ info [] decls h
  intro names info
  induction info with
  | nil => intro acc decls h; simp at h; simp [h]
  | cons v vs ih =>
    intro acc decls h
    rw [List.foldlM_cons] at h
    by_cases hp : v.parents = []
    · simp only [writeStep, hp, if_true, Except.ok_bind'] at h
      rw [ih _ _ h]; simp [hp]; omega
    · simp only [writeStep, hp, if_false] at h
      have hr : ∀ (is : List ℕ) (acc acc' : List Decl),
          refitParents names v.name is acc = .ok acc' → acc'.length = acc.length := by
        intro is
        induction is with
        | nil => intro acc acc' h; simp [refitParents] at h; rw [h]
        | cons i is ihi =>
          intro acc acc' h
          simp only [refitParents] at h
          cases hn : names[i]? with
          | none => simp [hn] at h
          | some n =>
            simp only [hn] at h
            split_ifs at h
            simpa using ihi _ _ h
      cases hrr : refitParents names v.name v.parents acc with
      | error e => simp [hrr] at h
      | ok acc' =>
        rw [hrr, Except.ok_bind'] at h
        rw [ih _ _ h, hr _ _ _ hrr]; simp [hp]

/-- negation, by order: a parent declared after an unrelated hierarchical variable is not found -/
theorem write_model_late_parent :
    writeModel [⟨"a", [], 1, []⟩, ⟨"b", [], 1, [0]⟩, ⟨"c", [], 1, []⟩, ⟨"d", [], 1, [2]⟩] =
      .error .indexError := by
  simp [writeModel, writeStep, refitParents]

/-- negation, silently: `e` is not declared at all and `c` is declared twice -/
theorem write_model_lost_variable :
    writeModel [⟨"a", [], 1, []⟩, ⟨"b", [], 1, [0]⟩, ⟨"c", [], 1, []⟩, ⟨"e", [], 1, []⟩,
      ⟨"d", [], 1, [2]⟩] = .ok [⟨"a", some "b"⟩, ⟨"c", none⟩, ⟨"c", some "d"⟩] := by
  simp [writeModel, writeStep, refitParents]

/-- negation, by depth: when a parent itself has random parents there is no text, wherever it stands -/
theorem write_model_three_levels (tops hiers rest : List VarInfo) (v : VarInfo)
    (ht : ∀ v ∈ tops, v.parents = [])
    (hh : ∀ v ∈ hiers, v.parents ≠ [] ∧ ∀ i ∈ v.parents, i < tops.length)
    (hv : ∃ i is, v.parents = i :: is ∧ tops.length ≤ i) :
    writeModel (tops ++ hiers ++ v :: rest) = .error .indexError := by
  obtain ⟨i, is, hp, hi⟩ := hv
  -- the first two parts succeed with as many declarations as there are tops
  have hpre : ∀ names : List String, (∀ j (hj : j < tops.length), names[j]? = some tops[j].name) →
      ∃ decls, (tops ++ hiers).foldlM (writeStep names) [] = .ok decls ∧
        decls.length = tops.length := by
    intro names hnames
    have h1 : ∀ (ts : List VarInfo) (acc : List Decl), (∀ v ∈ ts, v.parents = []) →
        ts.foldlM (writeStep names) acc = .ok (acc ++ ts.map fun v => ⟨v.name, none⟩) := by
      intro ts
      induction ts with
      | nil => intro acc _; simp
      | cons t ts ih =>
        intro acc hts
        rw [List.foldlM_cons]
        simp only [writeStep, hts t (by simp), if_true, Except.ok_bind']
        rw [ih _ fun v hv => hts v (by simp [hv])]
        simp
    have h2 : ∀ (hs : List VarInfo) (acc : List Decl), acc.length = tops.length →
        (∀ (j : ℕ) (hj : j < acc.length), names[j]? = some acc[j].name) →
        (∀ v ∈ hs, v.parents ≠ [] ∧ ∀ i ∈ v.parents, i < tops.length) →
        ∃ decls, hs.foldlM (writeStep names) acc = .ok decls ∧ decls.length = tops.length := by
      intro hs
      induction hs with
      | nil => intro acc ha _ _; exact ⟨acc, rfl, ha⟩
      | cons h hs ih =>
        intro acc ha hn hall
        obtain ⟨hp, hi⟩ := hall h (by simp)
        obtain ⟨acc', r1, r2, r3⟩ := refit_ok names h.name h.parents acc hn
          (by intro i hii; rw [ha]; exact hi i hii)
        obtain ⟨decls, g1, g2⟩ := ih acc' (by omega) (by
          intro j hj
          rw [hn j (by omega), (r3 j (by omega) hj).1]) fun v hv => hall v (by simp [hv])
        refine ⟨decls, ?_, g2⟩
        rw [List.foldlM_cons]
        simp only [writeStep, hp, if_false, r1, Except.ok_bind']
        exact g1
    rw [List.foldlM_append, h1 tops [] ht, Except.ok_bind', List.nil_append]
    exact h2 hiers _ (by simp) (by intro j hj; simpa using hnames j (by simpa using hj)) hh
  obtain ⟨decls, hd, hl⟩ := hpre ((tops ++ hiers ++ v :: rest).map VarInfo.name) (by
    intro j hj
    have : j < (tops ++ hiers ++ v :: rest).length := by simp; omega
    rw [List.getElem?_eq_getElem (by simpa using this)]
    simp [List.getElem_append, hj])
  unfold writeModel
  rw [List.foldlM_append, hd, Except.ok_bind', List.foldlM_cons]
  have : writeStep ((tops ++ hiers ++ v :: rest).map VarInfo.name) decls v = .error .indexError := by
    simp only [writeStep, hp, List.cons_ne_nil, reduceCtorEq, if_false, refitParents]
    cases ((tops ++ hiers ++ v :: rest).map VarInfo.name)[i]? with
    | none => rfl
    | some n => simp only; rw [if_neg (by omega)]
  rw [this]; rfl

/-- `mu -> group -> unit`: the third level refers to the second -/
example : writeModel [⟨"mu", [], 1, []⟩, ⟨"group", [3], 3, [0]⟩, ⟨"unit", [9], 9, [1]⟩] =
    .error .indexError :=
  write_model_three_levels [⟨"mu", [], 1, []⟩] [⟨"group", [3], 3, [0]⟩] [] ⟨"unit", [9], 9, [1]⟩
    (by simp) (by simp) ⟨1, [], rfl, by simp⟩

/-! ## The lines themselves -/

/-- opening minus closing parentheses -/
def parens (l : List Char) : ℤ := (l.count '(' : ℤ) - l.count ')'

theorem parens_append (a b : List Char) : parens (a ++ b) = parens a + parens b := by
  simp [parens]; ring

private theorem parens_none {l : List Char} (h : '(' ∉ l ∧ ')' ∉ l) : parens l = 0 := by
  simp [parens, List.count_eq_zero_of_not_mem h.1, List.count_eq_zero_of_not_mem h.2]

private theorem parens_nat (n : ℕ) : parens (toString n).toList = 0 := by
  apply parens_none
  have h : ∀ c ∈ (toString n).toList, c.isDigit = true := by
    intro c hc
    have : (toString n).toList = Nat.toDigits 10 n := by
      simp [toString, Nat.repr]
    rw [this] at hc
    exact Nat.isDigit_of_mem_toDigits (by norm_num) (by norm_num) hc
  exact ⟨fun hc => by have := h _ hc; revert this; decide, fun hc => by have := h _ hc; revert this; decide⟩

/-- PyMC declarations, and Bambi declarations of variables that are not refitted, have balanced
parentheses (for names and parameter texts without parentheses) -/
theorem lines_balanced (key : List Char) (r : ReprText) (size : ℕ) (hk : '(' ∉ key ∧ ')' ∉ key)
    (hn : '(' ∉ r.name ∧ ')' ∉ r.name) (hp : '(' ∉ r.params ∧ ')' ∉ r.params) :
    parens (pymcLine key r size) = 0 ∧ parens (bambiLine key r size) = 0 := by
  have k := parens_none hk
  have n := parens_none hn
  have p := parens_none hp
  have s := parens_nat size
  unfold pymcLine bambiLine
  split_ifs <;> simp only [parens_append, k, n, p, s] <;> constructor <;> simp [parens]

/-- negation for Bambi: the declaration of a refitted variable always has one closing parenthesis too
many -/
theorem bambi_refit_unbalanced (key : List Char) (r : ReprText) (size : ℕ)
    (hk : '(' ∉ key ∧ ')' ∉ key) (hn : '(' ∉ r.name ∧ ')' ∉ r.name)
    (hp : '(' ∉ r.params ∧ ')' ∉ r.params) : parens (bambiRefitLine key r size) = -1 := by
  have k := parens_none hk
  have n := parens_none hn
  have p := parens_none hp
  have s := parens_nat size
  unfold bambiRefitLine
  split_ifs <;> simp only [parens_append, k, n, p, s] <;> simp [parens]

/-- the three kinds of declaration name the variable and the class, hold the parameter text, and end in the shape exactly for
vectors of two or more values -/
theorem lines_text (key : List Char) (r : ReprText) (size : ℕ) :
    ∃ tail : List Char, tail = (if size ≤ 1 then [] else ", shape=".toList ++ (toString size).toList) ∧
      bambiLine key r size = "\"".toList ++ key ++ "\" : bmb.Prior(\"".toList ++ r.name ++ "\", ".toList ++ r.params ++ tail ++
        "),\n".toList ∧
      bambiRefitLine key r size = "\"".toList ++ key ++ "\" : bmb.Prior(\"".toList ++ r.name ++ "\", ".toList ++ r.params ++
        ")".toList ++ tail ++ "),\n".toList ∧
      pymcLine key r size = "    ".toList ++ key ++ " = pm.".toList ++ r.name ++ "(\"".toList ++ key ++ "\", ".toList ++
        r.params ++ tail ++ ")\n".toList := by
  refine ⟨_, rfl, ?_⟩
  unfold bambiLine bambiRefitLine pymcLine
  by_cases h : size ≤ 1
  · simp [h, not_lt.2 h]
  · simp [h, not_le.1 h]

/-- negation for Bambi: the dictionary that the text opens is never closed -/
theorem bambi_text_not_closed (lines : List (List Char)) (h : ∀ l ∈ lines, '}' ∉ l) :
    '{' ∈ bambiText lines ∧ '}' ∉ bambiText lines := by
  constructor
  · simp [bambiText]
  · simp only [bambiText, List.mem_append, List.mem_flatten, not_or, not_exists, not_and]
    exact ⟨by simp, fun l hl => h l hl⟩

example : '(' ∉ "mu=0, sigma=2.5".toList ∧ ')' ∉ "mu=0, sigma=2.5".toList := by simp

end Verif.Props
