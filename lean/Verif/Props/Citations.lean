import Verif.Model.Citations
import Mathlib.Tactic

/-!
# C95: `citations` returns the entries asked for, each once and complete
-/

namespace Verif.Props

open Verif.Citations

/-- `p` stands somewhere in `s` -/
def Contains (s p : Text) : Prop := ∃ a b, s = a ++ p ++ b

/-- an entry as BibTeX files have it -/
structure EntryOk (e : Entry) : Prop where
  kind_some : e.kind ≠ []
  kind_alphanum : ∀ c ∈ e.kind, c.isAlphanum = true ∨ c = '_'
  key_some : e.key ≠ []
  key_chars : ∀ c ∈ e.key, c ∉ [',', '@', ' ', '\n', '\t', '\r']
  body_at : '@' ∉ e.body
  body_open : ¬ Contains e.body ['\n', '}']

theorem EntryOk.kind_word {e : Entry} (h : EntryOk e) : ∀ c ∈ e.kind, isWord c = true := by
  intro c hc
  rcases h.kind_alphanum c hc with h | h <;> simp [isWord, h]

theorem EntryOk.key_char {e : Entry} (h : EntryOk e) : ∀ c ∈ e.key, c ≠ ',' ∧ c ≠ '@' ∧ isSpace c = false := by
  intro c hc
  have := h.key_chars c hc
  simp only [List.mem_cons, List.not_mem_nil, or_false, not_or] at this
  obtain ⟨h1, h2, h3, h4, h5, h6⟩ := this
  exact ⟨h1, h2, by simp [isSpace, h3, h4, h5, h6]⟩

private theorem closing_body (b r : Text) (h : ¬ Contains b ['\n', '}']) :
    closing (b ++ '\n' :: '}' :: r) = some r := by
  induction b with
  | nil => simp [closing]
  | cons c t ih =>
    have ht : ¬ Contains t ['\n', '}'] := by
      rintro ⟨x, y, rfl⟩
      exact h ⟨c :: x, y, rfl⟩
    have : closing (c :: (t ++ '\n' :: '}' :: r)) = closing (t ++ '\n' :: '}' :: r) := by
      rw [closing]
      intro r' hc hr'
      subst hc
      cases t with
      | nil => simp at hr'
      | cons d u =>
        simp only [List.cons_append, List.cons.injEq] at hr'
        obtain ⟨rfl, -⟩ := hr'
        exact h ⟨[], u, rfl⟩
    simpa [this] using ih ht

private theorem takeWhile_stop {p : Char → Bool} (a : Text) (c : Char) (r : Text) (ha : ∀ x ∈ a, p x = true)
    (hc : p c = false) : (a ++ c :: r).takeWhile p = a ∧ (a ++ c :: r).dropWhile p = c :: r := by
  induction a with
  | nil => simp [hc]
  | cons d t ih =>
    have := ih fun x hx => ha x (by simp [hx])
    simp [ha d (by simp), this]

private theorem after_append (p r : Text) : after p (p ++ r) = some r := by
  unfold after
  rw [if_pos (by simp)]
  simp

private theorem after_some {p s r : Text} (h : after p s = some r) : s = p ++ r := by
  unfold after at h
  split_ifs at h with hp
  cases h
  rw [List.isPrefixOf_iff_prefix] at hp
  obtain ⟨t, rfl⟩ := hp
  simp

private theorem dropWhile_none {p : Char → Bool} (a : Text) (h : ∀ c, a.head? = some c → p c = false) :
    a.dropWhile p = a := by
  cases a with
  | nil => rfl
  | cons c t => simp [h c rfl]

private theorem word_brace : isWord '{' = false := by decide
private theorem word_at : isWord '@' = false := by decide
private theorem space_comma : isSpace ',' = false := by decide

private theorem entryHere_text (key : Text) (e : Entry) (he : EntryOk e) (r : Text) :
    entryHere key (e.text ++ r) = (after key (e.key ++ ',' :: (e.body ++ '\n' :: '}' :: r))).bind fun t =>
      match t.dropWhile isSpace with
      | ',' :: b => closing b
      | _ => none := by
  have e1 : e.text ++ r = '@' :: (e.kind ++ '{' :: (e.key ++ ',' :: (e.body ++ '\n' :: '}' :: r))) := by
    simp [Entry.text]
  obtain ⟨h1, h2⟩ := takeWhile_stop (p := isWord) e.kind '{' (e.key ++ ',' :: (e.body ++ '\n' :: '}' :: r))
    he.kind_word word_brace
  rw [e1]
  unfold entryHere
  simp only [h1, h2, if_neg he.kind_some]
  rw [dropWhile_none (p := isSpace)]
  · rfl
  · intro c hc
    cases hk : e.key with
    | nil => exact absurd hk he.key_some
    | cons d t =>
      rw [hk] at hc
      simp only [List.cons_append, List.head?_cons, Option.some.injEq] at hc
      subst hc
      exact (he.key_char d (by simp [hk])).2.2

private theorem entryHere_same (e : Entry) (he : EntryOk e) (r : Text) :
    entryHere e.key (e.text ++ r) = some r := by
  rw [entryHere_text _ e he, after_append]
  simp only [Option.bind_some, List.dropWhile_cons, space_comma]
  exact closing_body _ _ he.body_open

private theorem entryHere_other (key : Text) (e : Entry) (he : EntryOk e) (hk : ',' ∉ key) (hne : key ≠ e.key)
    (r : Text) : entryHere key (e.text ++ r) = none := by
  rw [entryHere_text _ e he]
  cases ha : after key (e.key ++ ',' :: (e.body ++ '\n' :: '}' :: r)) with
  | none => rfl
  | some t =>
    have h := after_some ha
    simp only [Option.bind_some]
    rcases List.append_eq_append_iff.mp h with ⟨u, hu, hr⟩ | ⟨u, hu, hr⟩
    · cases u with
      | nil => simp at hu; exact absurd hu hne
      | cons c v =>
        simp only [List.cons_append, List.cons.injEq] at hr
        obtain ⟨rfl, -⟩ := hr
        exact absurd (by simp [hu]) hk
    · cases u with
      | nil => simp at hu; exact absurd hu.symm hne
      | cons c v =>
        have hc := he.key_char c (by simp [hu])
        rw [hr]
        simp only [List.cons_append, List.dropWhile_cons, hc.2.2]
        simp [hc.1]

private theorem search_skip (key s r : Text) (h : '@' ∉ s) : search key (s ++ r) = search key r := by
  induction s with
  | nil => rfl
  | cons c t ih =>
    simp only [List.mem_cons, not_or] at h
    have : entryHere key (c :: (t ++ r)) = none := by
      unfold entryHere
      split
      · rename_i heq
        simp only [List.cons.injEq] at heq
        exact absurd heq.1.symm h.1
      · rfl
    rw [List.cons_append, search, this]
    exact ih h.2

private theorem text_tail (e : Entry) (he : EntryOk e) : ∃ t, e.text = '@' :: t ∧ '@' ∉ t := by
  refine ⟨_, rfl, ?_⟩
  simp only [List.mem_append, List.mem_cons, not_or, List.not_mem_nil, or_false]
  refine ⟨fun h => ?_, by decide, fun h => (he.key_char _ h).2.1 rfl, by decide, he.body_at, by decide, by decide⟩
  have := he.kind_word _ h
  rw [word_at] at this
  cases this

private theorem search_text (key : Text) (e : Entry) (he : EntryOk e) (hk : ',' ∉ key) (r : Text) :
    search key (e.text ++ r) = if key = e.key then some e.text else search key r := by
  obtain ⟨t, ht, hat⟩ := text_tail e he
  split_ifs with h
  · subst h
    have h1 := entryHere_same e he r
    rw [ht] at h1 ⊢
    rw [List.cons_append] at h1 ⊢
    rw [search, h1]
    have : ('@' :: (t ++ r)).length - r.length = ('@' :: t).length := by simp; omega
    simp only [this]
    rw [← List.cons_append, List.take_left']
    rfl
  · have h1 := entryHere_other key e he hk h r
    rw [ht] at h1 ⊢
    rw [List.cons_append] at h1 ⊢
    rw [search, h1]
    exact search_skip key t r hat

/-- a file: entries with keys of their own, and nothing with an `@` between them -/
structure FileOk (es : List (Entry × Text)) : Prop where
  entry : ∀ p ∈ es, EntryOk p.1
  gap : ∀ p ∈ es, '@' ∉ p.2
  keys : (es.map fun p => p.1.key).Nodup

private theorem FileOk.tail {p : Entry × Text} {es : List (Entry × Text)} (h : FileOk (p :: es)) : FileOk es :=
  ⟨fun q hq => h.entry q (by simp [hq]), fun q hq => h.gap q (by simp [hq]), (List.nodup_cons.mp h.keys).2⟩

/-- **C95**: looking up a key gives the whole entry of that key and nothing else, or nothing if the file has no such
key (a key that begins like another one is not mistaken for it). -/
theorem search_file (es : List (Entry × Text)) (h : FileOk es) (key : Text) (hk : ',' ∉ key) :
    search key (fileText es) = ((es.map Prod.fst).find? (fun e => e.key = key)).map Entry.text := by
  induction es with
  | nil => rfl
  | cons p t ih =>
    have : fileText (p :: t) = p.1.text ++ (p.2 ++ fileText t) := by simp [fileText]
    rw [this, search_text key p.1 (h.entry p (by simp)) hk, search_skip _ _ _ (h.gap p (by simp)), ih h.tail]
    by_cases hkey : key = p.1.key
    · simp [hkey]
    · simp [hkey, Ne.symm hkey]

private theorem findAll_drop (f : Text → Option (Text × ℕ)) (a r : Text) :
    findAll f a.length (a ++ r) = findAll f 0 r := by
  induction a with
  | nil => rfl
  | cons c t ih => simpa [findAll] using ih

private theorem findAll_skip (s r : Text) (h : '@' ∉ s) : findAll keyHere 0 (s ++ r) = findAll keyHere 0 r := by
  induction s with
  | nil => rfl
  | cons c t ih =>
    simp only [List.mem_cons, not_or] at h
    have : keyHere (c :: (t ++ r)) = none := by
      unfold keyHere
      split
      · rename_i heq
        simp only [List.cons.injEq] at heq
        exact absurd heq.1.symm h.1
      · rfl
    rw [List.cons_append, findAll, this]
    exact ih h.2

private theorem takeWhile_append_all {p : Char → Bool} (a r : Text) (h : ∀ c ∈ a, p c = true) :
    (a ++ r).takeWhile p = a ++ r.takeWhile p := by
  induction a with
  | nil => rfl
  | cons c t ih => simp [h c (by simp), ih fun x hx => h x (by simp [hx])]

private theorem word_newline : isWord '\n' = false := by decide
private theorem space_newline : isSpace '\n' = true := by decide

private theorem keyHere_text (e : Entry) (he : EntryOk e) (r : Text) :
    keyHere (e.text ++ r) = some (e.key, (e.kind ++ '{' :: (e.key ++ [','])).length) := by
  have e1 : e.text ++ r = '@' :: ((e.kind ++ '{' :: (e.key ++ [','])) ++ (e.body ++ '\n' :: '}' :: r)) := by
    simp [Entry.text]
  rw [e1]
  unfold keyHere
  simp only []
  rw [takeWhile_append_all]
  · generalize (e.body ++ '\n' :: '}' :: r).takeWhile _ = w
    have e2 : (e.kind ++ '{' :: (e.key ++ [','])) ++ w = e.kind ++ '{' :: (e.key ++ ',' :: w) := by simp
    rw [e2]
    have h1 := (takeWhile_stop (p := fun c => decide (c ≠ '{')) e.kind '{' (e.key ++ ',' :: w) (by
      intro x hx
      have := he.kind_word x hx
      simp only [decide_eq_true_eq]
      rintro rfl
      rw [word_brace] at this
      cases this) (by simp)).2
    have h2 := takeWhile_stop (p := fun c => decide (c ≠ ',')) e.key ',' w (by
      intro x hx
      simpa using (he.key_char x hx).1) (by simp)
    rw [h1]
    simp only [h2.1, h2.2]
    congr 2
    simp
    omega
  · intro c hc
    simp only [List.mem_append, List.mem_cons, List.not_mem_nil, or_false] at hc
    simp only [decide_eq_true_eq]
    rintro rfl
    rcases hc with h | h | h | h
    · have := he.kind_word _ h
      rw [word_newline] at this
      cases this
    · revert h; decide
    · have := (he.key_char _ h).2.2
      rw [space_newline] at this
      cases this
    · revert h; decide

/-- **C95**: the keys found for `methods="all"` are those of the entries, in order. -/
theorem file_keys (es : List (Entry × Text)) (h : FileOk es) :
    findAll keyHere 0 (fileText es) = es.map fun p => p.1.key := by
  induction es with
  | nil => rfl
  | cons p t ih =>
    have he := h.entry p (by simp)
    have e0 : fileText (p :: t) = p.1.text ++ (p.2 ++ fileText t) := by simp [fileText]
    have e1 : ∀ r, p.1.text ++ r = '@' :: ((p.1.kind ++ '{' :: (p.1.key ++ [','])) ++ (p.1.body ++ '\n' :: '}' :: r)) := by
      intro r; simp [Entry.text]
    have hk := keyHere_text p.1 he (p.2 ++ fileText t)
    rw [e0]
    rw [e1] at hk ⊢
    rw [findAll, hk]
    simp only [List.map_cons, List.cons.injEq, true_and]
    rw [findAll_drop, ← ih h.tail]
    have : p.1.body ++ '\n' :: '}' :: (p.2 ++ fileText t) = (p.1.body ++ '\n' :: '}' :: p.2) ++ fileText t := by simp
    rw [this]
    apply findAll_skip
    simp only [List.mem_append, List.mem_cons, not_or]
    exact ⟨he.body_at, by decide, by decide, h.gap p (by simp)⟩

/-- iterating over a set: every element once, in some order -/
def SetOrder (enum : List Text → List Text) : Prop := ∀ l, (enum l).Nodup ∧ ∀ k, k ∈ enum l ↔ k ∈ l

private theorem mapM_search (es : List (Entry × Text)) (h : FileOk es) (ks : List Text) (hc : ∀ k ∈ ks, ',' ∉ k)
    (hk : ∀ k ∈ ks, k ∈ es.map fun p => p.1.key) :
    ∃ fs : List Entry, fs.map Entry.key = ks ∧ (∀ f ∈ fs, f ∈ es.map Prod.fst) ∧
      ks.mapM (oneEntry (fileText es)) = .ok (fs.map Entry.text) := by
  induction ks with
  | nil => exact ⟨[], rfl, by simp, rfl⟩
  | cons k t ih =>
    obtain ⟨fs, h1, h2, h3⟩ := ih (fun x hx => hc x (by simp [hx])) fun x hx => hk x (by simp [hx])
    have hs := search_file es h k (hc k (by simp))
    have hmem := hk k (by simp)
    simp only [List.mem_map] at hmem
    obtain ⟨p, hp, hpk⟩ := hmem
    cases hf : (es.map Prod.fst).find? (fun e => e.key = k) with
    | none =>
      have := List.find?_eq_none.mp hf p.1 (by simp; exact ⟨p.2, hp⟩)
      simp [hpk] at this
    | some f =>
      have hfm := List.mem_of_find?_eq_some hf
      have hfk : f.key = k := by simpa using List.find?_some hf
      refine ⟨f :: fs, by simp [hfk, h1], ?_, ?_⟩
      · intro g hg
        rcases List.mem_cons.mp hg with rfl | hg
        · exact hfm
        · exact h2 g hg
      · rw [hf] at hs
        rw [List.mapM_cons]
        simp only [oneEntry, hs, Option.map_some, Except.ok_bind', List.map_cons, Except.pure_eq]
        rw [h3]
        rfl

private theorem mapM_missing (es : List (Entry × Text)) (h : FileOk es) (ks : List Text) (hc : ∀ k ∈ ks, ',' ∉ k)
    (hk : ∃ k ∈ ks, k ∉ es.map fun p => p.1.key) :
    ks.mapM (oneEntry (fileText es)) = .error .attributeError := by
  induction ks with
  | nil => simp at hk
  | cons k t ih =>
    rw [List.mapM_cons]
    cases hs : search k (fileText es) with
    | none => simp [oneEntry, hs, Except.error_bind']
    | some e =>
      have hin : k ∈ es.map fun p => p.1.key := by
        rw [search_file es h k (hc k (by simp))] at hs
        cases hf : (es.map Prod.fst).find? (fun e => e.key = k) with
        | none => rw [hf] at hs; cases hs
        | some f =>
          have hfm := List.mem_of_find?_eq_some hf
          have hfk : f.key = k := by simpa using List.find?_some hf
          simp only [List.mem_map] at hfm ⊢
          obtain ⟨p, hp, rfl⟩ := hfm
          exact ⟨p, hp, hfk⟩
      obtain ⟨k', hk', hn⟩ := hk
      have : k' ∈ t := by
        rcases List.mem_cons.mp hk' with rfl | h'
        · exact absurd hin hn
        · exact h'
      rw [ih (fun x hx => hc x (by simp [hx])) ⟨k', this, hn⟩]
      simp [oneEntry, hs, Except.ok_bind', Except.error_bind']

private theorem key_no_comma (es : List (Entry × Text)) (h : FileOk es) :
    ∀ k ∈ es.map fun p => p.1.key, ',' ∉ k := by
  intro k hk
  simp only [List.mem_map] at hk
  obtain ⟨p, hp, rfl⟩ := hk
  exact fun hc => ((h.entry p hp).key_char _ hc).1 rfl

/-- **C95**: `citations("all")` returns every entry of the file exactly once, complete, one after the other. -/
theorem citations_all (enum : List Text → List Text) (he : SetOrder enum) (es : List (Entry × Text)) (h : FileOk es) :
    ∃ fs : List Entry, List.Perm fs (es.map Prod.fst) ∧
      citations enum (fileText es) .all none "bibtex".toList =
        .ok (some (['\n'].intercalate (fs.map Entry.text)), none) := by
  obtain ⟨hn, hm⟩ := he (es.map fun p => p.1.key)
  obtain ⟨fs, h1, h2, h3⟩ := mapM_search es h (enum (es.map fun p => p.1.key))
    (fun k hk => key_no_comma es h k ((hm k).mp hk)) fun k hk => (hm k).mp hk
  refine ⟨fs, ?_, ?_⟩
  · have hfn : fs.Nodup := by
      rw [← h1] at hn
      exact List.Nodup.of_map _ hn
    have hen : (es.map Prod.fst).Nodup := by
      have := h.keys
      have e : (es.map fun p => p.1.key) = (es.map Prod.fst).map Entry.key := by simp
      rw [e] at this
      exact List.Nodup.of_map _ this
    rw [List.perm_ext_iff_of_nodup hfn hen]
    intro f
    constructor
    · exact h2 f
    · intro hf
      have hk : f.key ∈ enum (es.map fun p => p.1.key) := by
        rw [hm]
        simp only [List.mem_map] at hf ⊢
        obtain ⟨p, hp, rfl⟩ := hf
        exact ⟨p, hp, rfl⟩
      rw [← h1] at hk
      simp only [List.mem_map] at hk
      obtain ⟨g, hg, hgk⟩ := hk
      have hinj : ∀ x ∈ es.map Prod.fst, ∀ y ∈ es.map Prod.fst, x.key = y.key → x = y := by
        have e : (es.map fun p => p.1.key) = (es.map Prod.fst).map Entry.key := by simp
        have := h.keys
        rw [e] at this
        exact fun x hx y hy hxy => List.inj_on_of_nodup_map this hx hy hxy
      rw [← hinj g (h2 g hg) f hf hgk]
      exact hg
  · unfold citations keysOf citationBibtex
    simp only [file_keys es h, Except.ok_bind', if_true, Except.pure_eq]
    rw [h3]
    rfl

/-- **C95**: for a choice of keys (the two default ones, or those cited in docstrings): all of them in the file, then
exactly their entries, each once however often it is cited; one of them missing, then an AttributeError. -/
theorem citations_keys (enum : List Text → List Text) (he : SetOrder enum) (es : List (Entry × Text)) (h : FileOk es)
    (m : Methods) (ks : List Text) (hks : keysOf (fileText es) m = .ok ks) (hc : ∀ k ∈ ks, ',' ∉ k) :
    ((∀ k ∈ ks, k ∈ es.map fun p => p.1.key) →
      ∃ fs : List Entry, (fs.map Entry.key).Nodup ∧ (∀ k, k ∈ fs.map Entry.key ↔ k ∈ ks) ∧
        (∀ f ∈ fs, f ∈ es.map Prod.fst) ∧
        citations enum (fileText es) m none "bibtex".toList =
          .ok (some (['\n'].intercalate (fs.map Entry.text)), none)) ∧
    ((∃ k ∈ ks, k ∉ es.map fun p => p.1.key) →
      citations enum (fileText es) m none "bibtex".toList = .error .attributeError) := by
  obtain ⟨hn, hm⟩ := he ks
  constructor
  · intro hin
    obtain ⟨fs, h1, h2, h3⟩ := mapM_search es h (enum ks) (fun k hk => hc k ((hm k).mp hk))
      fun k hk => hin k ((hm k).mp hk)
    refine ⟨fs, by rw [h1]; exact hn, fun k => by rw [h1]; exact hm k, h2, ?_⟩
    unfold citations citationBibtex
    simp only [hks, Except.ok_bind', if_true, Except.pure_eq]
    rw [h3]
    rfl
  · rintro ⟨k, hk, hno⟩
    have := mapM_missing es h (enum ks) (fun k hk => hc k ((hm k).mp hk)) ⟨k, (hm k).mpr hk, hno⟩
    unfold citations citationBibtex
    simp only [hks, Except.ok_bind', if_true, Except.pure_eq]
    rw [this]
    rfl

/-- **C95**: with a file path the same text is written there and nothing is returned; an empty path is no path; a format
other than bibtex is refused. -/
theorem citations_file (enum : List Text → List Text) (content : Text) (m : Methods) (text : Text) (p : Text)
    (hp : p ≠ []) (h : citations enum content m none "bibtex".toList = .ok (some text, none)) :
    citations enum content m (some p) "bibtex".toList = .ok (none, some (p, text)) ∧
    citations enum content m (some []) "bibtex".toList = .ok (some text, none) ∧
    ∀ f q, f ≠ "bibtex".toList → citations enum content m q f = .error .valueError := by
  unfold citations at h ⊢
  cases hk : keysOf content m with
  | error e => rw [hk] at h; cases h
  | ok ks =>
    simp only [hk, Except.ok_bind', if_true] at h ⊢
    cases hb : citationBibtex content (enum ks) with
    | error e => rw [hb] at h; cases h
    | ok t =>
      rw [hb] at h
      simp only [Except.ok_bind', Except.pure_eq, Except.ok.injEq, Prod.mk.injEq, Option.some.injEq, and_true] at h
      subst h
      refine ⟨?_, rfl, fun f q hf => by rw [if_neg hf]⟩
      cases p with
      | nil => exact absurd rfl hp
      | cons c t => rfl

/-! ### Docstrings -/

/-- text in which no citation begins -/
structure NoCite (s : Text) : Prop where
  no_c : ¬ Contains s [':', 'c']
  no_f : ¬ Contains s [':', 'f']
  last : s.getLast? ≠ some ':'

/-- a citation in a docstring -/
structure Cite where
  foot : Bool
  paren : Bool
  key : Text

def Cite.text (c : Cite) : Text :=
  (if c.foot then ":footcite:".toList else ":cite:".toList) ++
    (if c.paren then 'p' else 't') :: ':' :: '`' :: (c.key ++ ['`'])

/-- a docstring: citations, each with the text before it, and the text behind the last -/
def docText (cs : List (Text × Cite)) (last : Text) : Text := (cs.flatMap fun p => p.1 ++ p.2.text) ++ last

private theorem citeHere_ne (c : Char) (r : Text) (h : c ≠ ':') : citeHere (c :: r) = none := by
  have e : ":cite:".toList = ':' :: "cite:".toList := by decide
  have e' : ":footcite:".toList = ':' :: "footcite:".toList := by decide
  have h' : (':' == c) = false := by simpa using Ne.symm h
  unfold citeHere after
  rw [e, e']
  simp [List.isPrefixOf, h']

private theorem citeHere_colon (d : Char) (r : Text) (h : d ≠ 'c') (h2 : d ≠ 'f') : citeHere (':' :: d :: r) = none := by
  have e : ":cite:".toList = ':' :: 'c' :: "ite:".toList := by decide
  have e' : ":footcite:".toList = ':' :: 'f' :: "ootcite:".toList := by decide
  have h' : ('c' == d) = false := by simpa using Ne.symm h
  have h3 : ('f' == d) = false := by simpa using Ne.symm h2
  unfold citeHere after
  rw [e, e']
  simp [List.isPrefixOf, h', h3]

private theorem findAll_plain (s r : Text) (h : NoCite s) : findAll citeHere 0 (s ++ r) = findAll citeHere 0 r := by
  induction s with
  | nil => rfl
  | cons c t ih =>
    have ht : NoCite t := by
      refine ⟨?_, ?_, ?_⟩
      · rintro ⟨a, b, rfl⟩; exact h.no_c ⟨c :: a, b, rfl⟩
      · rintro ⟨a, b, rfl⟩; exact h.no_f ⟨c :: a, b, rfl⟩
      · cases t with
        | nil => simp
        | cons d u => simpa using h.last
    have : citeHere (c :: (t ++ r)) = none := by
      by_cases hc : c = ':'
      · subst hc
        cases t with
        | nil => exact absurd rfl h.last
        | cons d u =>
          apply citeHere_colon
          · rintro rfl; exact h.no_c ⟨[], u, rfl⟩
          · rintro rfl; exact h.no_f ⟨[], u, rfl⟩
      · exact citeHere_ne c _ hc
    rw [List.cons_append, findAll, this]
    exact ih ht

private theorem citeHere_text (c : Cite) (h1 : '`' ∉ c.key) (h2 : '\n' ∉ c.key) (r : Text) :
    citeHere (c.text ++ r) = some (c.key, c.text.length - 1) := by
  have hs := takeWhile_stop (p := fun x => decide (x ≠ '`')) c.key '`' r (by
    intro x hx
    simp only [decide_eq_true_eq]
    rintro rfl
    exact h1 hx) (by simp)
  have key : ∀ (pre : Text) (t : Char), (t = 't' ∨ t = 'p') →
      c.text ++ r = pre ++ t :: ':' :: '`' :: (c.key ++ '`' :: r) →
      ((after ":cite:".toList (c.text ++ r)).orElse fun _ => after ":footcite:".toList (c.text ++ r)) =
        some (t :: ':' :: '`' :: (c.key ++ '`' :: r)) →
      citeHere (c.text ++ r) = some (c.key, c.text.length - 1) := by
    intro pre t ht he ha
    unfold citeHere
    rw [ha]
    simp only [if_pos ht, hs.1, hs.2, if_neg h2]
    congr 2
    simp
  have e1 : ∀ r : Text, after ":cite:".toList (":footcite:".toList ++ r) = none := by
    intro r; rfl
  cases hf : c.foot
  · refine key ":cite:".toList (if c.paren then 'p' else 't') (by cases c.paren <;> simp) ?_ ?_
    · simp [Cite.text, hf]
    · have : c.text ++ r = ":cite:".toList ++ ((if c.paren then 'p' else 't') :: ':' :: '`' :: (c.key ++ '`' :: r)) := by
        simp [Cite.text, hf]
      rw [this, after_append]
      rfl
  · refine key ":footcite:".toList (if c.paren then 'p' else 't') (by cases c.paren <;> simp) ?_ ?_
    · simp [Cite.text, hf]
    · have : c.text ++ r = ":footcite:".toList ++ ((if c.paren then 'p' else 't') :: ':' :: '`' :: (c.key ++ '`' :: r)) := by
        simp [Cite.text, hf]
      rw [this, e1, after_append]
      rfl

/-- **C95**: the keys found in a docstring are those of its citations, in order, whichever of the four roles is used. -/
theorem doc_keys (cs : List (Text × Cite)) (last : Text) (hl : NoCite last)
    (hc : ∀ p ∈ cs, NoCite p.1 ∧ '`' ∉ p.2.key ∧ '\n' ∉ p.2.key) :
    findAll citeHere 0 (docText cs last) = cs.map fun p => p.2.key := by
  induction cs with
  | nil =>
    have := findAll_plain last [] hl
    simpa [docText, findAll] using this
  | cons p t ih =>
    obtain ⟨hp, h1, h2⟩ := hc p (by simp)
    have e0 : docText (p :: t) last = p.1 ++ (p.2.text ++ docText t last) := by simp [docText]
    rw [e0, findAll_plain _ _ hp]
    obtain ⟨u, hu⟩ : ∃ u, p.2.text = ':' :: u := by
      unfold Cite.text
      cases p.2.foot
      · exact ⟨_, rfl⟩
      · exact ⟨_, rfl⟩
    have hh := citeHere_text p.2 h1 h2 (docText t last)
    rw [hu, List.cons_append] at hh ⊢
    rw [findAll, hh]
    simp only [List.map_cons, List.cons.injEq, true_and, List.length_cons, Nat.add_sub_cancel]
    rw [findAll_drop]
    exact ih fun q hq => hc q (by simp [hq])

/-- **C95**: the methods given decide the keys by their docstrings alone; one without a docstring, or a method that is
not in a list, is a TypeError. -/
theorem methods_keys (content : Text) (docs : List (List (Text × Cite) × Text))
    (h : ∀ d ∈ docs, NoCite d.2 ∧ ∀ p ∈ d.1, NoCite p.1 ∧ '`' ∉ p.2.key ∧ '\n' ∉ p.2.key) :
    keysOf content (.objects (docs.map fun d => some (docText d.1 d.2))) =
      .ok (docs.flatMap fun d => d.1.map fun p => p.2.key) ∧
    (∀ l, none ∈ l → keysOf content (.objects l) = .error .typeError) ∧
    keysOf content .single = .error .typeError := by
  refine ⟨?_, ?_, rfl⟩
  · have : ∀ ds : List (List (Text × Cite) × Text),
        (∀ d ∈ ds, NoCite d.2 ∧ ∀ p ∈ d.1, NoCite p.1 ∧ '`' ∉ p.2.key ∧ '\n' ∉ p.2.key) →
        (ds.map fun d => some (docText d.1 d.2)).mapM docKeys = .ok (ds.map fun d => d.1.map fun p => p.2.key) := by
      intro ds hds
      induction ds with
      | nil => rfl
      | cons d t ih =>
        rw [List.map_cons, List.mapM_cons, ih fun x hx => hds x (by simp [hx])]
        simp only [docKeys, Except.ok_bind', Except.pure_eq, List.map_cons]
        rw [doc_keys d.1 d.2 (hds d (by simp)).1 (hds d (by simp)).2]
    unfold keysOf
    simp only []
    rw [this docs h]
    simp [Except.ok_bind', Except.pure_eq, List.flatMap]
  · intro l hl
    have : l.mapM docKeys = .error .typeError := by
      induction l with
      | nil => simp at hl
      | cons d t ih =>
        rw [List.mapM_cons]
        cases d with
        | none => rfl
        | some doc =>
          have : none ∈ t := by simpa using hl
          rw [ih this]
          rfl
    unfold keysOf
    simp only []
    rw [this]
    rfl

/-- **C95**, negative: a name given as a string, which the documentation allows, returns an empty text. -/
theorem citations_string (enum : List Text → List Text) (he : SetOrder enum) (content strDoc name : Text)
    (hd : NoCite strDoc) (hn : name ≠ "all".toList) :
    citations enum content (.ofString strDoc name) none "bibtex".toList = .ok (some [], none) := by
  have hk : keysOf content (.ofString strDoc name) = .ok [] := by
    unfold Methods.ofString
    rw [if_neg hn]
    have h := (methods_keys content (name.map fun _ => ([], strDoc)) (by
      intro d hd'
      simp only [List.mem_map] at hd'
      obtain ⟨-, -, rfl⟩ := hd'
      exact ⟨hd, by simp⟩)).1
    have e : (name.map fun _ => (([], strDoc) : List (Text × Cite) × Text)).map (fun d => some (docText d.1 d.2)) =
        name.map fun _ => some strDoc := by
      simp [docText]
    rw [e] at h
    rw [h]
    simp
  have h0 : enum [] = [] := by
    have := (he []).2
    exact List.eq_nil_iff_forall_not_mem.mpr fun k hk => by simpa using (this k).mp hk
  unfold citations
  rw [hk]
  simp only [Except.ok_bind', if_true, h0]
  rfl

/-! ### The file of the library -/

/-- decides `EntryOk` -/
def entryCheck (e : Entry) : Bool :=
  !e.kind.isEmpty && e.kind.all isWord && !e.key.isEmpty &&
    e.key.all (fun c => c != ',' && c != '@' && !isSpace c) && !e.body.contains '@' && (closing e.body).isNone

private theorem closing_contains (s : Text) (h : Contains s ['\n', '}']) : (closing s).isSome := by
  obtain ⟨a, b, rfl⟩ := h
  induction a with
  | nil => simp [closing]
  | cons c t ih =>
    rw [List.cons_append, List.cons_append]
    unfold closing
    split
    · rfl
    · rename_i heq
      simp only [List.cons.injEq] at heq
      rw [← heq.2]
      exact ih
    · rename_i heq; cases heq

private theorem entryCheck_ok (e : Entry) (h : entryCheck e = true) : EntryOk e := by
  unfold entryCheck at h
  simp only [Bool.and_eq_true, Bool.not_eq_true', List.all_eq_true, bne_iff_ne, ne_eq, Option.isNone_iff_eq_none] at h
  obtain ⟨⟨⟨⟨⟨h1, h2⟩, h3⟩, h4⟩, h5⟩, h6⟩ := h
  refine ⟨by simpa using h1, fun c hc => by simpa [isWord] using h2 c hc, by simpa using h3, fun c hc => ?_,
    by simpa using h5, fun hc => ?_⟩
  · have := h4 c hc
    simp only [isSpace, Bool.or_eq_false_iff, beq_eq_false_iff_ne] at this
    simp [this]
  have := closing_contains _ hc
  rw [h6] at this
  cases this

/-- **C95**: the file of the library is one of those described above, and has the entries of the keys used by default
and of those cited in the docstrings of `dirichlet_mode`, `Roulette`, `quartile_int` and `mle`. -/
theorem reference_file : ∃ es, FileOk es ∧ fileText es = referenceBib ∧ es.map Prod.fst = entries ∧
    ∀ k ∈ ["PreliZ", "Icazatti2023", "Michael2017", "Morris2014", "Burnham2004"],
      k.toList ∈ es.map fun p => p.1.key := by
  have hlen : entries.length = 5 := by decide +kernel
  refine ⟨referenceParts, ⟨?_, ?_, ?_⟩, rfl, ?_, ?_⟩
  · have : ∀ e ∈ entries, entryCheck e = true := by decide +kernel
    intro p hp
    exact entryCheck_ok _ (this _ (List.of_mem_zip hp).1)
  · intro p hp
    have h := (List.of_mem_zip hp).2
    have : ∀ g ∈ [['\n', '\n'], ['\n', '\n'], ['\n', '\n'], ['\n', '\n'], ['\n']], '@' ∉ g := by decide +kernel
    exact this _ h
  · decide +kernel
  · unfold referenceParts
    rw [List.map_fst_zip]
    simp [hlen]
  · decide +kernel

/-- **C95**: called without arguments, `citations` returns the two entries about PreliZ itself. -/
theorem citations_default (enum : List Text → List Text) (he : SetOrder enum) :
    ∃ fs : List Entry, (fs.map Entry.key).Nodup ∧
      (∀ k, k ∈ fs.map Entry.key ↔ k = "PreliZ".toList ∨ k = "Icazatti2023".toList) ∧ (∀ f ∈ fs, f ∈ entries) ∧
      citations enum referenceBib .default none "bibtex".toList =
        .ok (some (['\n'].intercalate (fs.map Entry.text)), none) := by
  obtain ⟨es, hok, ht, hes, hk⟩ := reference_file
  obtain ⟨fs, h1, h2, h3, h4⟩ := (citations_keys enum he es hok .default _ rfl (by decide +kernel)).1 (by
    intro k hk'
    rcases List.mem_cons.mp hk' with rfl | hk'
    · exact hk "PreliZ" (by simp)
    · rcases List.mem_cons.mp hk' with rfl | hk'
      · exact hk "Icazatti2023" (by simp)
      · cases hk')
  rw [ht] at h4
  rw [hes] at h3
  exact ⟨fs, h1, fun k => by rw [h2]; simp, h3, h4⟩

/-- **C95**: for every choice of the four functions that cite something, their entries are returned. -/
theorem citations_cited (enum : List Text → List Text) (he : SetOrder enum)
    (docs : List (List (Text × Cite) × Text))
    (h : ∀ d ∈ docs, NoCite d.2 ∧ ∀ p ∈ d.1, NoCite p.1 ∧
      p.2.key ∈ ["Michael2017".toList, "Morris2014".toList, "Burnham2004".toList]) :
    ∃ fs : List Entry, (fs.map Entry.key).Nodup ∧
      (∀ k, k ∈ fs.map Entry.key ↔ ∃ d ∈ docs, ∃ p ∈ d.1, p.2.key = k) ∧ (∀ f ∈ fs, f ∈ entries) ∧
      citations enum referenceBib (.objects (docs.map fun d => some (docText d.1 d.2))) none "bibtex".toList =
        .ok (some (['\n'].intercalate (fs.map Entry.text)), none) := by
  obtain ⟨es, hok, ht, hes, hk⟩ := reference_file
  have hchars : ∀ k ∈ ["Michael2017".toList, "Morris2014".toList, "Burnham2004".toList],
      ',' ∉ k ∧ '`' ∉ k ∧ '\n' ∉ k := by decide +kernel
  have hks := (methods_keys (fileText es) docs fun d hd => ⟨(h d hd).1, fun p hp =>
    ⟨((h d hd).2 p hp).1, (hchars _ ((h d hd).2 p hp).2).2⟩⟩).1
  have hmem : ∀ k ∈ (docs.flatMap fun d => d.1.map fun p => p.2.key),
      k ∈ ["Michael2017".toList, "Morris2014".toList, "Burnham2004".toList] := by
    intro k hk
    simp only [List.mem_flatMap, List.mem_map] at hk
    obtain ⟨d, hd, p, hp, rfl⟩ := hk
    exact ((h d hd).2 p hp).2
  obtain ⟨fs, h1, h2, h3, h4⟩ := (citations_keys enum he es hok _ _ hks fun k hk => (hchars k (hmem k hk)).1).1 (by
    intro k hk'
    have hm := hmem k hk'
    rcases List.mem_cons.mp hm with rfl | hm
    · exact hk "Michael2017" (by simp)
    · rcases List.mem_cons.mp hm with rfl | hm
      · exact hk "Morris2014" (by simp)
      · rcases List.mem_cons.mp hm with rfl | hm
        · exact hk "Burnham2004" (by simp)
        · cases hm)
  rw [ht] at h4
  rw [hes] at h3
  exact ⟨fs, h1, fun k => by rw [h2]; simp, h3, h4⟩

/-! ### Examples -/

/-- an order of sets -/
example : SetOrder List.dedup := fun l => ⟨List.nodup_dedup l, fun k => List.mem_dedup⟩

example : NoCite "Parameters\nx : int, see ".toList := by
  refine ⟨?_, ?_, by decide +kernel⟩ <;>
  · rintro ⟨a, b, h⟩
    have h1 : ∀ i, "Parameters\nx : int, see ".toList[i]? = some ':' →
        "Parameters\nx : int, see ".toList[i + 1]? = some ' ' := by
      intro i
      by_cases hi : i < 25
      · interval_cases i <;> decide +kernel
      · intro h'
        have : "Parameters\nx : int, see ".toList.length = 24 := by decide +kernel
        rw [List.getElem?_eq_none (by omega)] at h'
        cases h'
    have h2 := h1 a.length (by rw [h]; simp)
    rw [h] at h2
    simp at h2

/-- a key that is the beginning of another -/
example : search "Morris".toList referenceBib = none := by
  obtain ⟨es, hok, ht, hes, -⟩ := reference_file
  rw [← ht, search_file es hok _ (by decide +kernel), hes]
  have : entries.find? (fun e => e.key = "Morris".toList) = none := by
    rw [List.find?_eq_none]
    decide +kernel
  rw [this]
  rfl

/-- the citation as it stands in `Roulette` -/
example : findAll citeHere 0 "see :footcite:t:`Morris2014` and".toList = ["Morris2014".toList] := by decide +kernel

end Verif.Props
