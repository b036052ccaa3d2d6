import Verif.Model.Extra
import Mathlib.Tactic

/-!
# C52: extra-parameter strings
-/

set_option linter.unusedSimpArgs false

namespace Verif.Props
open Verif Verif.Extra

/-! ## What the texts mean -/

/-- one entry `Name(contents)` and the text between it and the previous entry -/
structure Entry where
  gap : List Char
  name : List Char
  body : List Char

/-- the text of entries, followed by a tail -/
def entryText : List Entry → List Char → List Char
  | [], tail => tail
  | e :: es, tail => e.gap ++ e.name ++ '(' :: (e.body ++ ')' :: entryText es tail)

/-- a name of word characters; separators without an opening bracket that do not run into the name; contents
without a closing bracket or line break -/
structure Entry.Ok (word : Char → Bool) (e : Entry) : Prop where
  name_ne : e.name ≠ []
  name_word : ∀ c ∈ e.name, word c = true
  gap_open : '(' ∉ e.gap
  gap_end : ∀ c, e.gap.getLast? = some c → word c = false
  body_close : ')' ∉ e.body
  body_line : '\n' ∉ e.body

/-- pieces joined by a separator -/
def joinWith (sep : Char) : List (List Char) → List Char
  | [] => []
  | [p] => p
  | p :: q :: ps => p ++ sep :: joinWith sep (q :: ps)

/-- `k` is `a` without white space at its ends -/
def Strips (space : Char → Bool) (a k : List Char) : Prop :=
  ∃ l r, a = l ++ k ++ r ∧ (∀ c ∈ l, space c = true) ∧ (∀ c ∈ r, space c = true) ∧
    (∀ c, k.head? = some c → space c = false) ∧ (∀ c, k.getLast? = some c → space c = false)

section
variable {V : Type} (space : Char → Bool) (float : List Char → Option V)

/-- the piece is `key = number` -/
def IsItem (p k : List Char) (x : V) : Prop :=
  ∃ a v, p = a ++ '=' :: v ∧ '=' ∉ a ∧ '=' ∉ v ∧ Strips space a k ∧ float v = some x

/-- the contents are well formed and say `d`: comma-separated items; the last item of a key counts -/
def Says (body : List Char) (d : List Char → Option V) : Prop :=
  ∃ ps : List (List Char), ps ≠ [] ∧ (∀ p ∈ ps, ',' ∉ p) ∧ body = joinWith ',' ps ∧
    (∀ p ∈ ps, ∃ k x, IsItem space float p k x) ∧
    ∀ k x, d k = some x ↔ ∃ pre p post, ps = pre ++ p :: post ∧ IsItem space float p k x ∧
      ∀ q ∈ post, ∀ y, ¬ IsItem space float q k y

end

/-! ## Splitting and stripping -/

private theorem split_ne (sep : Char) (l : List Char) : splitChar sep l ≠ [] := by
  cases l with
  | nil => simp [splitChar]
  | cons c cs =>
    unfold splitChar
    split_ifs
    · simp
    · split <;> simp

private theorem split_no_sep (sep : Char) (l : List Char) (h : sep ∉ l) : splitChar sep l = [l] := by
  induction l with
  | nil => rfl
  | cons c cs ih =>
    rw [List.mem_cons, not_or] at h
    rw [splitChar, if_neg (Ne.symm h.1), ih h.2]

theorem split_append (sep : Char) (p r : List Char) (h : sep ∉ p) :
    splitChar sep (p ++ sep :: r) = p :: splitChar sep r := by
  induction p with
  | nil => simp [splitChar]
  | cons c cs ih =>
    rw [List.mem_cons, not_or] at h
    rw [List.cons_append, splitChar, if_neg (Ne.symm h.1), ih h.2]

theorem split_join (sep : Char) (ps : List (List Char)) (h : ps ≠ []) (hs : ∀ p ∈ ps, sep ∉ p) :
    splitChar sep (joinWith sep ps) = ps := by
  induction ps with
  | nil => exact absurd rfl h
  | cons p ps ih =>
    cases ps with
    | nil => exact split_no_sep sep p (hs p List.mem_cons_self)
    | cons q ps =>
      rw [joinWith, split_append sep p _ (hs p List.mem_cons_self),
        ih (by simp) fun x hx => hs x (List.mem_cons_of_mem _ hx)]

private theorem split_spec (sep : Char) (l : List Char) :
    (∀ p ∈ splitChar sep l, sep ∉ p) ∧ l = joinWith sep (splitChar sep l) := by
  induction l with
  | nil => simp [splitChar, joinWith]
  | cons c cs ih =>
    obtain ⟨i1, i2⟩ := ih
    have hne := split_ne sep cs
    unfold splitChar
    by_cases hc : c = sep
    · rw [if_pos hc]
      refine ⟨by simpa using i1, ?_⟩
      cases hs : splitChar sep cs with
      | nil => exact absurd hs hne
      | cons p ps => rw [joinWith, ← hs, ← i2, hc]; rfl
    · rw [if_neg hc]
      cases hs : splitChar sep cs with
      | nil => exact absurd hs hne
      | cons p ps =>
        rw [hs] at i1 i2
        simp only
        refine ⟨?_, ?_⟩
        · intro q hq
          rcases List.mem_cons.1 hq with rfl | hq
          · have := i1 p List.mem_cons_self
            simp [Ne.symm hc, this]
          · exact i1 q (List.mem_cons_of_mem _ hq)
        · cases ps with
          | nil => rw [joinWith] at i2 ⊢; rw [i2]
          | cons q ps => rw [joinWith] at i2 ⊢; rw [i2]; rfl

private theorem dropWhile_head (space : Char → Bool) (l : List Char) (c : Char)
    (h : (l.dropWhile space).head? = some c) : space c = false := by
  induction l with
  | nil => simp at h
  | cons a l ih =>
    rw [List.dropWhile_cons] at h
    split_ifs at h with ha
    · exact ih h
    · simp at h; rw [← h]; simpa using ha

private theorem takeWhile_mem (space : Char → Bool) (l : List Char) (c : Char) (h : c ∈ l.takeWhile space) :
    space c = true := by
  induction l with
  | nil => simp at h
  | cons a l ih =>
    rw [List.takeWhile_cons] at h
    split_ifs at h with ha
    · rcases List.mem_cons.1 h with rfl | h
      · exact ha
      · exact ih h
    · simp at h

private theorem dropWhile_all (space : Char → Bool) (l m : List Char) (h : ∀ c ∈ l, space c = true) :
    (l ++ m).dropWhile space = m.dropWhile space := by
  induction l with
  | nil => rfl
  | cons a l ih =>
    rw [List.cons_append, List.dropWhile_cons, if_pos (h a List.mem_cons_self)]
    exact ih fun c hc => h c (List.mem_cons_of_mem _ hc)

private theorem dropWhile_of_head (space : Char → Bool) (l : List Char)
    (h : ∀ c, l.head? = some c → space c = false) : l.dropWhile space = l := by
  cases l with
  | nil => rfl
  | cons a l => rw [List.dropWhile_cons, if_neg]; simpa using h a rfl

/-- `str.strip` -/
theorem strip_iff (space : Char → Bool) (a k : List Char) : strip space a = k ↔ Strips space a k := by
  constructor
  · rintro rfl
    refine ⟨a.takeWhile space, ((a.dropWhile space).reverse.takeWhile space).reverse, ?_, ?_, ?_, ?_, ?_⟩
    · unfold strip
      rw [List.append_assoc, ← List.reverse_append, List.takeWhile_append_dropWhile, List.reverse_reverse,
        List.takeWhile_append_dropWhile]
    · intro c hc; exact takeWhile_mem space _ c hc
    · intro c hc; rw [List.mem_reverse] at hc; exact takeWhile_mem space _ c hc
    · intro c hc
      unfold strip at hc
      have h1 : ((a.dropWhile space).reverse.dropWhile space).reverse <+: a.dropWhile space := by
        have := List.dropWhile_suffix space (l := (a.dropWhile space).reverse)
        have := List.reverse_prefix.2 this
        rwa [List.reverse_reverse] at this
      have h2 : (a.dropWhile space).head? = some c := by
        obtain ⟨t, ht⟩ := h1
        rw [← ht, List.head?_append, hc]; rfl
      exact dropWhile_head space a c h2
    · intro c hc
      unfold strip at hc
      rw [List.getLast?_reverse] at hc
      exact dropWhile_head space _ c hc
  · rintro ⟨l, r, rfl, hl, hr, hh, ht⟩
    unfold strip
    rw [List.append_assoc, dropWhile_all space l _ hl]
    by_cases hk : k = []
    · subst hk
      rw [List.nil_append]
      have : r.dropWhile space = [] := by
        have := dropWhile_all space r [] hr
        simpa using this
      rw [this]; rfl
    · have h1 : (k ++ r).dropWhile space = k ++ r := by
        apply dropWhile_of_head
        intro c hc
        cases k with
        | nil => exact absurd rfl hk
        | cons x k => exact hh c (by simpa using hc)
      rw [h1, List.reverse_append, dropWhile_all space r.reverse _ (by intro c hc; exact hr c (by simpa using hc))]
      rw [dropWhile_of_head, List.reverse_reverse]
      intro c hc
      rw [List.head?_reverse] at hc
      exact ht c hc

section
variable {V : Type} (space : Char → Bool) (float : List Char → Option V)

private theorem item_iff (p k : List Char) (x : V) :
    item space float p = some (k, x) ↔ IsItem space float p k x := by
  constructor
  · intro h
    obtain ⟨s1, s2⟩ := split_spec '=' p
    unfold item at h
    split at h
    · rename_i a v hs
      rw [hs] at s1 s2
      obtain ⟨y, hy, h⟩ := Option.map_eq_some_iff.1 h
      simp only [Prod.mk.injEq] at h
      refine ⟨a, v, by simpa [joinWith] using s2, s1 a (by simp), s1 v (by simp), ?_, ?_⟩
      · exact (strip_iff space a k).1 h.1
      · rw [hy, h.2]
    · simp at h
  · rintro ⟨a, v, rfl, ha, hv, hk, hx⟩
    unfold item
    rw [split_append '=' a v ha, split_no_sep '=' v hv]
    simp [hx, (strip_iff space a k).2 hk]

private theorem items_iff (ps : List (List Char)) (d0 d : List Char → Option V) :
    items space float ps d0 = some d ↔
      (∀ p ∈ ps, ∃ k x, IsItem space float p k x) ∧
      ∀ k, (∀ x, (∃ pre p post, ps = pre ++ p :: post ∧ IsItem space float p k x ∧
          ∀ q ∈ post, ∀ y, ¬ IsItem space float q k y) → d k = some x) ∧
        ((∀ p ∈ ps, ∀ y, ¬ IsItem space float p k y) → d k = d0 k) := by
  induction ps generalizing d0 with
  | nil =>
    simp only [items, Option.some.injEq, List.not_mem_nil, false_imp_iff, implies_true, true_and, true_imp_iff]
    constructor
    · rintro rfl k; simp
    · intro h; funext k; exact ((h k).2).symm
  | cons p ps ih =>
    unfold items
    cases hi : item space float p with
    | none =>
      simp only [reduceCtorEq, false_iff, not_and]
      intro h
      obtain ⟨k, x, hk⟩ := h p List.mem_cons_self
      rw [← item_iff, hi] at hk
      simp at hk
    | some kv =>
      obtain ⟨k0, x0⟩ := kv
      have hp := (item_iff space float p k0 x0).1 hi
      have huniq : ∀ k x, IsItem space float p k x → k = k0 ∧ x = x0 := by
        intro k x h
        rw [← item_iff, hi] at h
        simp only [Option.some.injEq, Prod.mk.injEq] at h
        exact ⟨h.1.symm, h.2.symm⟩
      simp only
      rw [ih]
      constructor
      · rintro ⟨h1, h2⟩
        refine ⟨?_, fun k => ⟨?_, ?_⟩⟩
        · intro q hq
          rcases List.mem_cons.1 hq with rfl | hq
          · exact ⟨k0, x0, hp⟩
          · exact h1 q hq
        · rintro x ⟨pre, q, post, he, hq, hpost⟩
          cases pre with
          | nil =>
            rw [List.nil_append] at he
            injection he with e1 e2
            subst e1 e2
            obtain ⟨rfl, rfl⟩ := huniq _ _ hq
            rw [(h2 k).2 hpost, Function.update_self]
          | cons r pre =>
            rw [List.cons_append] at he
            injection he with e1 e2
            exact (h2 k).1 x ⟨pre, q, post, e2, hq, hpost⟩
        · intro hn
          have hk : k ≠ k0 := by rintro rfl; exact hn p List.mem_cons_self x0 hp
          rw [(h2 k).2 fun q hq => hn q (List.mem_cons_of_mem _ hq), Function.update_of_ne hk]
      · rintro ⟨h1, h2⟩
        refine ⟨fun q hq => h1 q (List.mem_cons_of_mem _ hq), fun k => ⟨?_, ?_⟩⟩
        · rintro x ⟨pre, q, post, he, hq, hpost⟩
          exact (h2 k).1 x ⟨p :: pre, q, post, by rw [he]; rfl, hq, hpost⟩
        · intro hn
          by_cases hk : k = k0
          · subst hk
            rw [Function.update_self]
            exact (h2 k).1 x0 ⟨[], p, ps, rfl, hp, hn⟩
          · rw [Function.update_of_ne hk]
            apply (h2 k).2
            intro q hq y hy
            rcases List.mem_cons.1 hq with rfl | hq
            · exact hk (huniq k y hy).1
            · exact hn q hq y hy

/-- some piece is the last one for the key, or there is none -/
private theorem last_item (ps : List (List Char)) (k : List Char) :
    (∃ x pre p post, ps = pre ++ p :: post ∧ IsItem space float p k x ∧
      ∀ q ∈ post, ∀ y, ¬ IsItem space float q k y) ∨ (∀ p ∈ ps, ∀ y, ¬ IsItem space float p k y) := by
  induction ps with
  | nil => right; simp
  | cons p ps ih =>
    rcases ih with ⟨x, pre, q, post, he, h⟩ | h
    · left; exact ⟨x, p :: pre, q, post, by rw [he]; rfl, h⟩
    · by_cases hp : ∃ y, IsItem space float p k y
      · obtain ⟨y, hy⟩ := hp
        left; exact ⟨y, [], p, ps, rfl, hy, h⟩
      · right
        intro q hq y hy
        rcases List.mem_cons.1 hq with rfl | hq
        · exact hp ⟨y, hy⟩
        · exact h q hq y hy

/-- the contents are accepted exactly if they are well formed, with the dictionary they say -/
theorem extra_body (body : List Char) (d : List Char → Option V) :
    items space float (splitChar ',' body) (fun _ => none) = some d ↔ Says space float body d := by
  rw [items_iff]
  constructor
  · rintro ⟨h1, h2⟩
    obtain ⟨s1, s2⟩ := split_spec ',' body
    refine ⟨splitChar ',' body, split_ne _ _, s1, s2, h1, fun k x => ⟨fun hd => ?_, (h2 k).1 x⟩⟩
    rcases last_item space float (splitChar ',' body) k with ⟨y, h⟩ | h
    · have := (h2 k).1 y h
      rw [hd] at this
      injection this with this
      subst this
      exact h
    · rw [(h2 k).2 h] at hd; simp at hd
  · rintro ⟨ps, hne, hc, rfl, h1, h2⟩
    rw [split_join ',' ps hne hc]
    refine ⟨h1, fun k => ⟨fun x h => (h2 k x).2 h, fun hn => ?_⟩⟩
    cases hd : d k with
    | none => rfl
    | some x =>
      obtain ⟨pre, p, post, he, hp, -⟩ := (h2 k x).1 hd
      exact absurd hp (hn p (by rw [he]; simp) x)

private theorem entries_iff (es : List (List Char × List Char)) (d0 : List Char → Option (List Char → Option V))
    (n : List Char) :
    (∀ d, (∃ pre b post, es = pre ++ (n, b) :: post ∧ Says space float b d ∧
        ∀ b', (n, b') ∈ post → ∀ d', ¬ Says space float b' d') → entries space float es d0 n = some d) ∧
    ((∀ b, (n, b) ∈ es → ∀ d, ¬ Says space float b d) → entries space float es d0 n = d0 n) := by
  induction es generalizing d0 with
  | nil => simp [entries]
  | cons e es ih =>
    obtain ⟨m, b⟩ := e
    unfold entries
    cases hi : items space float (splitChar ',' b) (fun _ => none) with
    | none =>
      have hnot : ∀ d, ¬ Says space float b d := by
        intro d hd; rw [← extra_body, hi] at hd; simp at hd
      simp only
      refine ⟨?_, fun h => (ih d0).2 fun b' hb' => h b' (List.mem_cons_of_mem _ hb')⟩
      rintro d ⟨pre, b', post, he, hs, hp⟩
      cases pre with
      | nil =>
        rw [List.nil_append] at he
        injection he with e1 e2
        injection e1 with e1 e3
        subst e3
        exact absurd hs (hnot d)
      | cons r pre =>
        rw [List.cons_append] at he
        injection he with e1 e2
        exact (ih d0).1 d ⟨pre, b', post, e2, hs, hp⟩
    | some a =>
      have hs0 := (extra_body space float b a).1 hi
      simp only
      refine ⟨?_, ?_⟩
      · rintro d ⟨pre, b', post, he, hs, hp⟩
        cases pre with
        | nil =>
          rw [List.nil_append] at he
          injection he with e1 e2
          injection e1 with e1 e3
          subst e1 e2 e3
          rw [(ih _).2 hp, Function.update_self]
          rw [← extra_body, hi] at hs
          exact hs
        | cons r pre =>
          rw [List.cons_append] at he
          injection he with e1 e2
          exact (ih _).1 d ⟨pre, b', post, e2, hs, hp⟩
      · intro h
        have hm : n ≠ m := by
          rintro rfl; exact h b List.mem_cons_self a hs0
        rw [(ih _).2 fun b' hb' => h b' (List.mem_cons_of_mem _ hb'), Function.update_of_ne hm]

end

/-! ## Finding the entries -/

private theorem matchHere_none (word : Char → Bool) (l : List Char) (h : '(' ∉ l) : matchHere word l = none := by
  unfold matchHere
  split_ifs with h1
  · rfl
  · split
    · rfl
    · rename_i c r hd
      rw [if_neg]
      rintro rfl
      apply h
      have := (List.dropWhile_suffix word (l := l)).subset
      rw [hd] at this
      exact this List.mem_cons_self

private theorem findall_none (word : Char → Bool) (l : List Char) (h : '(' ∉ l) : findall word l = [] := by
  induction l with
  | nil => rw [findall]
  | cons c cs ih =>
    rw [findall]
    split
    · rename_i n b r hm
      rw [matchHere_none word _ h] at hm
      simp at hm
    · exact ih fun hc => h (List.mem_cons_of_mem _ hc)

private theorem findall_gap (word : Char → Bool) (g l : List Char) (h : '(' ∉ g)
    (hg : ∀ c, g.getLast? = some c → word c = false) : findall word (g ++ l) = findall word l := by
  induction g with
  | nil => rfl
  | cons c g ih =>
    have hlast : ∀ d, g.getLast? = some d → word d = false := by
      intro d hd
      apply hg
      cases g with
      | nil => simp at hd
      | cons x g => rw [List.getLast?_cons_cons]; exact hd
    have hnone : matchHere word (c :: g ++ l) = none := by
      unfold matchHere
      split_ifs with h1
      · rfl
      · have hd : ∃ x ∈ (c :: g), ((c :: g) ++ l).dropWhile word = x :: (((c :: g) ++ l).dropWhile word).tail := by
          have hex : ∃ x ∈ (c :: g), word x = false := by
            obtain ⟨x, hx⟩ : ∃ x, (c :: g).getLast? = some x := ⟨_, List.getLast?_eq_some_getLast (by simp)⟩
            exact ⟨x, List.mem_of_getLast? hx, hg x hx⟩
          clear h1 ih hlast h hg
          generalize c :: g = t at hex
          induction t with
          | nil => simp at hex
          | cons a t ih =>
            by_cases ha : word a = true
            · obtain ⟨x, hx, hw⟩ := hex
              have hx' : x ∈ t := by
                rcases List.mem_cons.1 hx with rfl | hx
                · rw [ha] at hw; simp at hw
                · exact hx
              obtain ⟨y, hy, he⟩ := ih ⟨x, hx', hw⟩
              refine ⟨y, List.mem_cons_of_mem _ hy, ?_⟩
              rw [List.cons_append, List.dropWhile_cons, if_pos ha]
              exact he
            · refine ⟨a, List.mem_cons_self, ?_⟩
              rw [List.cons_append, List.dropWhile_cons, if_neg ha]
              rfl
        obtain ⟨x, hx, hd⟩ := hd
        rw [hd]
        simp only
        rw [if_neg]
        rintro rfl
        exact h hx
    rw [List.cons_append, findall]
    split
    · rename_i n b r hm
      rw [List.cons_append] at hnone
      rw [hnone] at hm
      simp at hm
    · exact ih (fun hc => h (List.mem_cons_of_mem _ hc)) hlast

private theorem content_ok (b r : List Char) (h1 : ')' ∉ b) (h2 : '\n' ∉ b) : content (b ++ ')' :: r) = some (b, r) := by
  induction b with
  | nil => simp [content]
  | cons c b ih =>
    rw [List.mem_cons, not_or] at h1 h2
    rw [List.cons_append, content, if_neg (Ne.symm h1.1), if_neg (Ne.symm h2.1), ih h1.2 h2.2]
    rfl

private theorem matchHere_ok (word : Char → Bool) (hw : word '(' = false) (e : Entry) (he : e.Ok word)
    (r : List Char) : matchHere word (e.name ++ '(' :: (e.body ++ ')' :: r)) = some (e.name, e.body, r) := by
  have h1 : (e.name ++ '(' :: (e.body ++ ')' :: r)).takeWhile word = e.name := by
    rw [List.takeWhile_append_of_pos he.name_word]
    simp [hw]
  have h2 : (e.name ++ '(' :: (e.body ++ ')' :: r)).dropWhile word = '(' :: (e.body ++ ')' :: r) := by
    rw [List.dropWhile_append_of_pos he.name_word, List.dropWhile_cons, if_neg (by simp [hw])]
  unfold matchHere
  rw [h1, if_neg he.name_ne, h2]
  simp [content_ok e.body r he.body_close he.body_line]

/-- exactly the entries are found -/
theorem extra_found (word : Char → Bool) (hw : word '(' = false) (es : List Entry) (hes : ∀ e ∈ es, e.Ok word)
    (tail : List Char) (ht : '(' ∉ tail) :
    findall word (entryText es tail) = es.map fun e => (e.name, e.body) := by
  induction es with
  | nil => exact findall_none word tail ht
  | cons e es ih =>
    have he := hes e List.mem_cons_self
    rw [entryText, List.append_assoc, findall_gap word e.gap _ he.gap_open he.gap_end, List.map_cons,
      ← ih fun x hx => hes x (List.mem_cons_of_mem _ hx)]
    have hm := matchHere_ok word hw e he (entryText es tail)
    obtain ⟨c, n, hn⟩ := List.exists_cons_of_ne_nil he.name_ne
    rw [hn, List.cons_append] at hm ⊢
    rw [findall]
    split
    · rename_i n' b' r' hm'
      rw [hm] at hm'
      simp only [Option.some.injEq, Prod.mk.injEq] at hm'
      obtain ⟨rfl, rfl, rfl⟩ := hm'
      rfl
    · rename_i hm'
      rw [hm] at hm'
      simp at hm'

/-- The parser gives, for every name, what the last well-formed entry of that name says; entries that are not
well formed change nothing; names without a well-formed entry are absent. -/
theorem extra_parsed {V : Type} (word space : Char → Bool) (float : List Char → Option V)
    (hw : word '(' = false) (es : List Entry) (hes : ∀ e ∈ es, e.Ok word) (tail : List Char) (ht : '(' ∉ tail)
    (n : List Char) :
    (∀ d, processExtra word space float (entryText es tail) n = some d ↔
      ∃ pre e post, es = pre ++ e :: post ∧ e.name = n ∧ Says space float e.body d ∧
        ∀ e' ∈ post, e'.name = n → ∀ d', ¬ Says space float e'.body d') := by
  intro d
  unfold processExtra
  rw [extra_found word hw es hes tail ht]
  obtain ⟨h1, h2⟩ := entries_iff space float (es.map fun e => (e.name, e.body)) (fun _ => none) n
  have fwd : ∀ d, (∃ pre e post, es = pre ++ e :: post ∧ e.name = n ∧ Says space float e.body d ∧
        ∀ e' ∈ post, e'.name = n → ∀ d', ¬ Says space float e'.body d') →
      entries space float (es.map fun e => (e.name, e.body)) (fun _ => none) n = some d := by
    rintro d ⟨pre, e, post, rfl, rfl, hs, hp⟩
    apply h1
    refine ⟨pre.map fun e => (e.name, e.body), e.body, post.map fun e => (e.name, e.body), by simp, hs, ?_⟩
    intro b' hb' d'
    obtain ⟨e', he', heq⟩ := List.mem_map.1 hb'
    injection heq with q1 q2
    subst q2
    exact hp e' he' q1 d'
  refine ⟨fun hd => ?_, fwd d⟩
  by_cases hex : ∃ pre e post, es = pre ++ e :: post ∧ e.name = n ∧ (∃ d, Says space float e.body d) ∧
      ∀ e' ∈ post, e'.name = n → ∀ d', ¬ Says space float e'.body d'
  · obtain ⟨pre, e, post, q1, q2, ⟨d', hd'⟩, q3⟩ := hex
    have := fwd d' ⟨pre, e, post, q1, q2, hd', q3⟩
    rw [hd] at this
    injection this with this
    subst this
    exact ⟨pre, e, post, q1, q2, hd', q3⟩
  · have hnone : ∀ e ∈ es, e.name = n → ∀ d', ¬ Says space float e.body d' := by
      clear fwd hd h1 h2 hes
      induction es with
      | nil => simp
      | cons e es ih =>
        have ih := ih (by
          rintro ⟨pre, x, post, q1, q2⟩
          exact hex ⟨e :: pre, x, post, by rw [q1]; rfl, q2⟩)
        intro x hx hn d' hs
        rcases List.mem_cons.1 hx with rfl | hx
        · exact hex ⟨[], x, es, rfl, hn, ⟨d', hs⟩, ih⟩
        · exact ih x hx hn d' hs
    rw [h2] at hd
    · simp at hd
    · intro b hb d'
      obtain ⟨e', he', heq⟩ := List.mem_map.1 hb
      injection heq with q1 q2
      subst q2
      exact hnone e' he' q1 d'

/-- an entry without items is not well formed: `Name()` is ignored -/
theorem extra_empty {V : Type} (space : Char → Bool) (float : List Char → Option V) (d : List Char → Option V) :
    ¬ Says space float [] d := by
  rw [← extra_body]
  simp [splitChar, items, item]

/-- the hypotheses are met by an ordinary text, `A(x=1), B(), A(x=3)` -/
example : ∀ e ∈ [⟨[], ['A'], ['x', '=', '1']⟩, ⟨[',', ' '], ['B'], []⟩, ⟨[',', ' '], ['A'], ['x', '=', '3']⟩],
    Entry.Ok Char.isAlpha e := by
  intro e he
  fin_cases he <;> constructor <;> simp <;> decide

example : Says (fun c => c = ' ') (fun v => if v = ['3'] then some 3 else none) ['x', ' ', '=', '3']
    (fun k => if k = ['x'] then some 3 else none) := by
  rw [← extra_body]
  simp [splitChar, items, item, strip]
  funext k
  by_cases h : k = ['x'] <;> simp [h, Function.update]

end Verif.Props
