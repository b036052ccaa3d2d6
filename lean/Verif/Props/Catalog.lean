import Verif.Model.Catalog
import Mathlib.Tactic

/-!
# C54: the catalog
-/

set_option linter.unusedSimpArgs false

namespace Verif.Props
open Verif Verif.Catalog

/-- the documented categories whose query fails -/
def brokenCategories : List String :=
  ["non_negative", "non_negative_continuous", "bounded_discrete", "multivariate", "symmetric",
   "asymmetric"]

private def okWith {α : Type} (r : Except Err α) (p : α → Bool) : Bool :=
  match r with
  | .ok a => p a
  | .error _ => false

private theorem gives_of_okWith {α : Type} {r : Except Err α} {p : α → Bool} (h : okWith r p = true) :
    Gives r fun a => p a = true := by
  cases r with
  | error e => simp [okWith] at h
  | ok a => exact ⟨a, rfl, h⟩

/-- Partial: the query returns a non-empty list of existing distributions, without repetitions, for every
documented category except six. -/
theorem catalog_get_partial : ∀ category ∈ documented, category ∉ brokenCategories →
    Gives (getInstances category) fun l =>
      l ≠ [] ∧ l.Nodup ∧ (∀ name ∈ l, name ∈ existing) ∧ getNames category = .ok l := by
  have h : ∀ category ∈ documented, category ∉ brokenCategories →
      okWith (getInstances category) (fun l => decide (l ≠ []) && decide l.Nodup &&
        l.all existing.contains && decide (getNames category = .ok l)) = true := by decide +kernel
  intro c hc hb
  obtain ⟨l, hl, h⟩ := gives_of_okWith (h c hc hb)
  simp only [Bool.and_eq_true, decide_eq_true_eq, List.all_eq_true, List.contains_iff_mem] at h
  exact ⟨l, hl, h.1.1.1, h.1.1.2, h.1.2, h.2⟩

example : "positive" ∈ documented ∧ "positive" ∉ brokenCategories := by decide +kernel

/-- negation: six documented categories raise -/
theorem catalog_get_broken :
    (∀ c ∈ brokenCategories, c ∈ documented) ∧
    getInstances "non_negative" = .error .valueError ∧
    ∀ c ∈ brokenCategories, c ≠ "non_negative" → getInstances c = .error .attributeError := by
  have h : ∀ c ∈ brokenCategories, (c ∈ documented) ∧ (c ≠ "non_negative" →
      getInstances c = .error .attributeError) := by decide +kernel
  exact ⟨fun c hc => (h c hc).1, by decide +kernel, fun c hc => (h c hc).2⟩

/-- negation: the names returned for these categories are not all names of distributions -/
theorem catalog_names_broken : ∀ c ∈ brokenCategories, c ≠ "non_negative" →
    Gives (getNames c) fun l => ∃ name ∈ l, name ∉ existing := by
  have h : ∀ c ∈ brokenCategories, c ≠ "non_negative" →
      okWith (getNames c) (fun l => l.any fun name => !existing.contains name) = true := by
    decide +kernel
  intro c hc hne
  obtain ⟨l, hl, h⟩ := gives_of_okWith (h c hc hne)
  obtain ⟨x, hx, hx'⟩ := List.any_eq_true.1 h
  exact ⟨l, hl, x, hx, by simpa using hx'⟩

/-- any other string is rejected -/
theorem catalog_unknown (c : String) (h1 : c ∉ classGroups.map Prod.fst) (h2 : c ∉ nameGroups.map Prod.fst) :
    getInstances c = .error .valueError ∧ getNames c = .error .valueError := by
  have key : ∀ l : List (String × List String), c ∉ l.map Prod.fst → l.lookup c = none := by
    intro l
    induction l with
    | nil => simp
    | cons p l ih =>
      intro h
      obtain ⟨a, b⟩ := p
      simp only [List.map_cons, List.mem_cons, not_or] at h
      have hb : (c == a) = false := by simpa using h.1
      simp [List.lookup_cons, hb, ih h.2]
  simp [getInstances, getNames, key _ h1, key _ h2]

example : "discreet" ∉ classGroups.map Prod.fst ∧ "discreet" ∉ nameGroups.map Prod.fst := by
  decide +kernel

/-! ## `find` -/

/-- what the documented filters mean for a distribution object without parameters -/
def supportIs (s : String) (d : Entry) : Prop :=
  (s = "positive" ∧ d.lower = .fin false ∧ d.upper = .posInf) ∨
  (s = "bounded" ∧ (∃ a b, d.lower = .fin a ∧ d.upper = .fin b)) ∨
  (s = "unbounded" ∧ d.lower = .negInf ∧ d.upper = .posInf) ∨
  (s = "non_negative" ∧ d.lower = .fin false)

private theorem support_agrees : ∀ d ∈ allContinuous ++ allDiscrete,
    ∀ s ∈ ["positive", "bounded", "unbounded", "non_negative"],
      (matchesSupport d s = true ↔
        ((s = "positive" ∧ d.lower = .fin false ∧ d.upper = .posInf) ∨
        (s = "bounded" ∧ ((d.lower = .fin true ∨ d.lower = .fin false) ∧
          (d.upper = .fin true ∨ d.upper = .fin false))) ∨
        (s = "unbounded" ∧ d.lower = .negInf ∧ d.upper = .posInf) ∨
        (s = "non_negative" ∧ d.lower = .fin false))) := by decide +kernel

private theorem mem_findLoop (n : Option ℕ) (s : Option String) (l : List Entry) (d : Entry) :
    d ∈ findLoop n s l ↔ d ∈ l ∧ (∀ k, n = some k → d.numParams = k) ∧
      (∀ t, s = some t → matchesSupport d t = true) := by
  induction l with
  | nil => simp [findLoop]
  | cons a l ih =>
    by_cases h1 : ∃ k, n = some k ∧ a.numParams ≠ k
    · rw [findLoop, if_pos h1, ih]
      obtain ⟨k, hk, hne⟩ := h1
      constructor
      · rintro ⟨h, h'⟩; exact ⟨List.mem_cons_of_mem _ h, h'⟩
      · rintro ⟨h, h'⟩
        rcases List.mem_cons.1 h with rfl | h
        · exact absurd (h'.1 k hk) hne
        · exact ⟨h, h'⟩
    · rw [findLoop, if_neg h1]
      by_cases h2 : ∃ t, s = some t ∧ matchesSupport a t = false
      · rw [if_pos h2, ih]
        obtain ⟨t, ht, hne⟩ := h2
        constructor
        · rintro ⟨h, h'⟩; exact ⟨List.mem_cons_of_mem _ h, h'⟩
        · rintro ⟨h, h'⟩
          rcases List.mem_cons.1 h with rfl | h
          · rw [h'.2 t ht] at hne; simp at hne
          · exact ⟨h, h'⟩
      · rw [if_neg h2, List.mem_cons, ih, List.mem_cons]
        constructor
        · rintro (rfl | ⟨h, h'⟩)
          · refine ⟨.inl rfl, fun k hk => ?_, fun t ht => ?_⟩
            · by_contra hne; exact h1 ⟨k, hk, hne⟩
            · by_contra hne; exact h2 ⟨t, ht, by simpa using hne⟩
          · exact ⟨.inr h, h'⟩
        · rintro ⟨rfl | h, h'⟩
          · exact .inl rfl
          · exact .inr ⟨h, h'⟩

private theorem sublist_findLoop (n : Option ℕ) (s : Option String) (l : List Entry) :
    (findLoop n s l).Sublist l := by
  induction l with
  | nil => exact .refl _
  | cons a l ih =>
    rw [findLoop]
    split_ifs
    · exact ih.cons a
    · exact ih.cons a
    · exact ih.cons_cons a

/-- `find` returns exactly the distributions meeting the filters, each once, in the order of the catalog:
for every documented kind and support (or none) and every number of parameters (or none). -/
theorem catalog_find (kind : Option String) (n : Option ℕ) (s : Option String)
    (hk : ∀ k, kind = some k → k = "continuous" ∨ k = "discrete")
    (hs : ∀ t, s = some t → t ∈ ["positive", "bounded", "unbounded", "non_negative"]) (d : Entry) :
    (d ∈ find kind n s ↔
      ((d ∈ allContinuous ∧ kind ≠ some "discrete") ∨ (d ∈ allDiscrete ∧ kind ≠ some "continuous")) ∧
      (∀ k, n = some k → d.numParams = k) ∧ (∀ t, s = some t → supportIs t d)) ∧
    (find kind n s).Sublist (allContinuous ++ allDiscrete) := by
  have hc : d ∈ candidates kind ↔
      (d ∈ allContinuous ∧ kind ≠ some "discrete") ∨ (d ∈ allDiscrete ∧ kind ≠ some "continuous") := by
    cases kind with
    | none => simp [candidates]
    | some k =>
      rcases hk k rfl with rfl | rfl <;> simp [candidates]
  have hsub : (candidates kind).Sublist (allContinuous ++ allDiscrete) := by
    unfold candidates
    split_ifs
    · exact List.sublist_append_left _ _
    · exact List.sublist_append_right _ _
    · exact .refl _
  refine ⟨?_, (sublist_findLoop n s _).trans hsub⟩
  rw [find, mem_findLoop, hc]
  refine and_congr_right fun hd => and_congr_right fun _ => forall_congr' fun t => ?_
  refine imp_congr_right fun ht => ?_
  have hmem : d ∈ allContinuous ++ allDiscrete := by
    rcases hd with hd | hd
    · exact List.mem_append_left _ hd.1
    · exact List.mem_append_right _ hd.1
  rw [support_agrees d hmem t (hs t ht), supportIs]
  have : (∃ a b, d.lower = .fin a ∧ d.upper = .fin b) ↔
      ((d.lower = .fin true ∨ d.lower = .fin false) ∧ (d.upper = .fin true ∨ d.upper = .fin false)) := by
    constructor
    · rintro ⟨a, b, h1, h2⟩
      constructor
      · cases a
        · exact .inr h1
        · exact .inl h1
      · cases b
        · exact .inr h2
        · exact .inl h2
    · rintro ⟨h1 | h1, h2 | h2⟩ <;> exact ⟨_, _, h1, h2⟩
  rw [this]

example : (find (some "continuous") (some 4) none).map Entry.name =
    ["BetaScaled", "SkewStudentT", "TruncatedNormal"] := by decide +kernel

/-- The filter looks at objects without parameters, so the families whose support is an interval given by
parameters count as unbounded, contrary to the category of the same name. -/
theorem catalog_find_disagrees :
    "Uniform" ∈ (find none none (some "unbounded")).map Entry.name ∧
    "Uniform" ∉ (find none none (some "bounded")).map Entry.name ∧
    "Triangular" ∈ (find none none (some "unbounded")).map Entry.name ∧
    (nameGroups.lookup "bounded").map (·.contains "Uniform") = some true ∧
    (nameGroups.lookup "bounded").map (·.contains "Triangular") = some true := by
  refine ⟨?_, ?_, ?_, ?_, ?_⟩ <;> decide +kernel

/-- unknown kinds and supports are not rejected: they do not filter -/
theorem catalog_find_unknown (kind : String) (h1 : kind ≠ "continuous") (h2 : kind ≠ "discrete") :
    (∀ n s, find (some kind) n s = find none n s) := by
  intro n s
  simp [find, candidates, h1, h2]

end Verif.Props
