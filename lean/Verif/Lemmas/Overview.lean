import Verif.Model.Overview
import Verif.Spec.Html
import Verif.Lemmas.Printed

namespace Verif.Overview
open Verif Verif.Spec

abbrev St := Bool × List Char × List Piece

theorem fold_out (s : List Char) : ∀ (b : Bool) (cur : List Char) (out : List Piece),
    s.foldl readChar (b, cur, out) =
      ((s.foldl readChar (b, cur, [])).1, (s.foldl readChar (b, cur, [])).2.1,
        out ++ (s.foldl readChar (b, cur, [])).2.2) := by
  induction s with
  | nil => intro b cur out; simp
  | cons c s ih =>
    intro b cur out
    cases b with
    | false =>
      simp only [List.foldl_cons, readChar]
      split_ifs with h
      · rw [ih true [] (out ++ flushText cur), ih true [] ([] ++ flushText cur)]; simp
      · rw [ih false _ out]
    | true =>
      simp only [List.foldl_cons, readChar]
      split_ifs with h
      · rw [ih false [] (out ++ [Piece.tag cur]), ih false [] ([] ++ [Piece.tag cur])]; simp
      · rw [ih true _ out]

/-- a fixed piece of the page, beginning with a tag -/
theorem fold_lit {s : List Char} {cur' : List Char} {evs : List Piece} (h0 : s.head? = some '<')
    (h : s.foldl readChar (false, [], []) = (false, cur', evs)) (cur : List Char) (out : List Piece) :
    s.foldl readChar (false, cur, out) = (false, cur', out ++ flushText cur ++ evs) := by
  obtain ⟨s', rfl⟩ : ∃ s', s = '<' :: s' := by
    cases s with
    | nil => simp at h0
    | cons c s' => simp at h0; exact ⟨s', by rw [h0]⟩
  simp only [List.foldl_cons, readChar, if_true] at h ⊢
  rw [fold_out] at h ⊢
  simp only [flushText, List.append_nil, if_true, List.nil_append, Prod.mk.injEq] at h
  rw [h.1, h.2.1, h.2.2]

theorem fold_text {s : List Char} (h : '<' ∉ s) (cur : List Char) (out : List Piece) :
    s.foldl readChar (false, cur, out) = (false, cur ++ s, out) := by
  induction s generalizing cur with
  | nil => simp
  | cons c s ih =>
    simp only [List.mem_cons, not_or] at h
    rw [List.foldl_cons, readChar, if_neg (Ne.symm h.1), ih h.2]; simp

theorem digitChar_clean (n : ℕ) : n.digitChar ≠ '<' ∧ n.digitChar ≠ '>' := by
  by_cases h : n < 16
  · interval_cases n <;> decide
  · unfold Nat.digitChar
    repeat rw [if_neg (by omega)]
    decide

/-- the pieces of a row -/
def rowPieces (l v : List Char) : List Piece :=
  [.tag "tr".toList, .tag "td style='text-align:right;padding-right:10px'".toList, .tag "i".toList, .text l,
   .tag "/i".toList, .tag "/td".toList, .tag "td".toList, .text v, .tag "/td".toList, .tag "/tr".toList]

theorem flush_text {t : List Char} (h : t ≠ []) : flushText t = [.text t] := by simp [flushText, h]

theorem fold_row {l v : List Char} (hl : Clean l) (hv : Clean v) (cur : List Char) (out : List Piece) :
    (row l v).foldl readChar (false, cur, out) = (false, [], out ++ flushText cur ++ rowPieces l v) := by
  unfold row
  simp only [List.foldl_append]
  rw [fold_lit (s := "<tr><td style='text-align:right;padding-right:10px'><i>".toList) (cur' := [])
    (evs := [.tag "tr".toList, .tag "td style='text-align:right;padding-right:10px'".toList, .tag "i".toList])
    (by decide +kernel) (by decide +kernel), fold_text hl.2.1,
    fold_lit (s := "</i></td><td>".toList) (cur' := []) (evs := [.tag "/i".toList, .tag "/td".toList, .tag "td".toList])
    (by decide +kernel) (by decide +kernel), fold_text hv.2.1,
    fold_lit (s := "</td></tr>".toList) (cur' := []) (evs := [.tag "/td".toList, .tag "/tr".toList])
    (by decide +kernel) (by decide +kernel)]
  simp [rowPieces, flush_text hl.1, flush_text hv.1]

theorem fold_rows (ps : List (List Char × List Char)) (h : ∀ p ∈ ps, Clean p.1 ∧ Clean p.2) (out : List Piece) :
    (ps.map fun p => row p.1 p.2).flatten.foldl readChar (false, [], out) =
      (false, [], out ++ (ps.map fun p => rowPieces p.1 p.2).flatten) := by
  induction ps generalizing out with
  | nil => simp
  | cons p ps ih =>
    simp only [List.map_cons, List.flatten_cons, List.foldl_append]
    rw [fold_row (h p (by simp)).1 (h p (by simp)).2, ih fun q hq => h q (by simp [hq])]
    simp [flushText]

theorem nested_row (st : List (List Char)) (l v : List Char) (rest : List Piece) :
    nested st (rowPieces l v ++ rest) = nested st rest := by
  simp only [rowPieces, List.cons_append, List.nil_append]
  rfl

theorem nested_rows (ps : List (List Char × List Char)) (st : List (List Char)) (rest : List Piece) :
    nested st ((ps.map fun p => rowPieces p.1 p.2).flatten ++ rest) = nested st rest := by
  induction ps with
  | nil => simp
  | cons p ps ih => rw [List.map_cons, List.flatten_cons, List.append_assoc, nested_row, ih]

/-- the page made of a summary and rows -/
theorem page_pieces (name : List Char) (after : List Char) (ps : List (List Char × List Char)) (hn : Clean name)
    (ha : '<' ∉ after) (h : ∀ p ∈ ps, Clean p.1 ∧ Clean p.2) :
    pieces ("<details><summary>".toList ++ ("<b>".toList ++ name ++ "</b>".toList ++ after) ++ "</summary>".toList ++
      "<table style='margin-left:20px;margin-top:5px'>".toList ++ (ps.map fun p => row p.1 p.2).flatten ++
      "</table></details>".toList) =
    [.tag "details".toList, .tag "summary".toList, .tag "b".toList, .text name, .tag "/b".toList] ++ flushText after ++
      [.tag "/summary".toList, .tag "table style='margin-left:20px;margin-top:5px'".toList] ++
      (ps.map fun p => rowPieces p.1 p.2).flatten ++ [.tag "/table".toList, .tag "/details".toList] := by
  unfold pieces
  simp only [List.foldl_append]
  rw [fold_lit (s := "<details><summary>".toList) (cur' := []) (evs := [.tag "details".toList, .tag "summary".toList])
      (by decide +kernel) (by decide +kernel),
    fold_lit (s := "<b>".toList) (cur' := []) (evs := [.tag "b".toList]) (by decide +kernel) (by decide +kernel),
    fold_text hn.2.1,
    fold_lit (s := "</b>".toList) (cur' := []) (evs := [.tag "/b".toList]) (by decide +kernel) (by decide +kernel),
    fold_text ha,
    fold_lit (s := "</summary>".toList) (cur' := []) (evs := [.tag "/summary".toList]) (by decide +kernel)
      (by decide +kernel),
    fold_lit (s := "<table style='margin-left:20px;margin-top:5px'>".toList) (cur' := [])
      (evs := [.tag "table style='margin-left:20px;margin-top:5px'".toList]) (by decide +kernel) (by decide +kernel),
    fold_rows ps h,
    fold_lit (s := "</table></details>".toList) (cur' := []) (evs := [.tag "/table".toList, .tag "/details".toList])
      (by decide +kernel) (by decide +kernel)]
  simp [hn.1, flushText]

def textsOf (l : List Piece) : List (List Char) :=
  l.filterMap fun p => match p with | .text s => some s | .tag _ => none

theorem textsOf_append (a b : List Piece) : textsOf (a ++ b) = textsOf a ++ textsOf b := by simp [textsOf]

theorem textsOf_rows (ps : List (List Char × List Char)) :
    textsOf (ps.map fun p => rowPieces p.1 p.2).flatten = ps.flatMap fun p => [p.1, p.2] := by
  induction ps with
  | nil => rfl
  | cons p ps ih =>
    rw [List.map_cons, List.flatten_cons, textsOf_append, ih, List.flatMap_cons]
    rfl

theorem textsOf_flush (t : List Char) : textsOf (flushText t) = if t = [] then [] else [t] := by
  unfold flushText
  split_ifs <;> rfl

theorem nested_flush (st : List (List Char)) (t : List Char) (rest : List Piece) :
    nested st (flushText t ++ rest) = nested st rest := by
  unfold flushText
  split_ifs
  · simp
  · simp [nested]

theorem page_visible (name : List Char) (after : List Char) (ps : List (List Char × List Char)) (hn : Clean name)
    (ha : '<' ∉ after) (h : ∀ p ∈ ps, Clean p.1 ∧ Clean p.2) :
    let t := "<details><summary>".toList ++ ("<b>".toList ++ name ++ "</b>".toList ++ after) ++ "</summary>".toList ++
      "<table style='margin-left:20px;margin-top:5px'>".toList ++ (ps.map fun p => row p.1 p.2).flatten ++
      "</table></details>".toList
    visible t = [name] ++ (if after = [] then [] else [after]) ++ ps.flatMap (fun p => [p.1, p.2]) ∧ WellFormed t := by
  intro t
  have e := page_pieces name after ps hn ha h
  constructor
  · unfold visible
    rw [e]
    change textsOf _ = _
    simp only [textsOf_append, textsOf_rows, textsOf_flush]
    simp [textsOf]
  · unfold WellFormed
    rw [e]
    simp only [List.append_assoc]
    rw [show ∀ r, nested [] ([Piece.tag "details".toList, .tag "summary".toList, .tag "b".toList, .text name,
      .tag "/b".toList] ++ r) = nested ["summary".toList, "details".toList] r from fun r => rfl, nested_flush,
      show ∀ r, nested ["summary".toList, "details".toList] ([Piece.tag "/summary".toList,
        .tag "table style='margin-left:20px;margin-top:5px'".toList] ++ r) =
        nested ["table".toList, "details".toList] r from fun r => rfl, nested_rows]
    decide +kernel

/-! ## The description has no angle brackets -/

def Plain (t : List Char) : Prop := ∀ c ∈ t, c ≠ '<' ∧ c ≠ '>'

theorem Plain.append {a b : List Char} (ha : Plain a) (hb : Plain b) : Plain (a ++ b) := by
  intro c hc
  rcases List.mem_append.mp hc with h | h
  · exact ha c h
  · exact hb c h

theorem Plain.cons {x : Char} {b : List Char} (hx : x ≠ '<' ∧ x ≠ '>') (hb : Plain b) : Plain (x :: b) := by
  intro c hc
  rcases List.mem_cons.mp hc with rfl | h
  · exact hx
  · exact hb c h

theorem plain_flatten {l : List (List Char)} (h : ∀ t ∈ l, Plain t) : Plain l.flatten := by
  intro c hc
  obtain ⟨t, ht, hc⟩ := List.mem_flatten.mp hc
  exact h t ht c hc

theorem plain_nil : Plain [] := by intro c hc; simp at hc

theorem plain_chars (l : List ℕ) : Plain (Printed.chars l) := by
  intro c hc
  obtain ⟨d, -, rfl⟩ := List.mem_map.mp hc
  exact digitChar_clean d

theorem plain_withPoint (w f : List ℕ) : Plain (Printed.withPoint w f) := by
  unfold Printed.withPoint
  dsimp only
  split_ifs
  · exact plain_chars _
  · exact (plain_chars _).append (Plain.cons (by decide) (plain_chars _))

theorem plain_g3Pos (m : ℕ) (e : ℤ) : Plain (Printed.g3Pos m e) := by
  unfold Printed.g3Pos
  dsimp only
  split_ifs
  · exact plain_withPoint _ _
  · exact plain_withPoint _ _
  all_goals
    exact (plain_withPoint _ _).append (Plain.cons (by decide) (Plain.cons (by decide) (plain_chars _)))

theorem plain_text (v : Printed.Num) : Plain v.text := by
  cases v with
  | real x =>
    simp only [Printed.Num.text, Printed.g3]
    split_ifs
    · exact Plain.cons (by decide) plain_nil
    · exact Plain.cons (by decide) (plain_g3Pos _ _)
    · exact plain_g3Pos _ _
  | posInf => intro c hc; simp only [Printed.Num.text] at hc; revert c; decide +kernel
  | negInf => intro c hc; simp only [Printed.Num.text] at hc; revert c; decide +kernel
  | nan => intro c hc; simp only [Printed.Num.text] at hc; revert c; decide +kernel

theorem pyStrip_mem {s l : List Char} {c : Char} (h : c ∈ Printed.pyStrip s l) : c ∈ l := by
  unfold Printed.pyStrip at h
  have h1 := (List.dropWhile_sublist _).mem (List.mem_reverse.mp h)
  exact (List.dropWhile_sublist _).mem (List.mem_reverse.mp h1)

theorem plain_strip {s l : List Char} (h : Plain l) : Plain (Printed.pyStrip s l) := fun c hc => h c (pyStrip_mem hc)

theorem plain_item {n t : List Char} {v : Printed.Value} (hn : Plain n) (h : Printed.item n v = .ok t) : Plain t := by
  cases v with
  | missing => simp [Printed.item] at h
  | num v =>
    simp only [Printed.item, Except.ok.injEq] at h
    subst h
    exact (hn.append (Plain.cons (by decide) (plain_text v))).append (Plain.cons (by decide) (Plain.cons (by decide) plain_nil))
  | vec l =>
    simp only [Printed.item, Except.ok.injEq] at h
    subst h
    refine (hn.append (Plain.cons (by decide) (Plain.cons (by decide) (plain_strip (plain_flatten ?_))))).append
      (Plain.cons (by decide) (Plain.cons (by decide) (Plain.cons (by decide) plain_nil)))
    intro t ht
    obtain ⟨v, -, rfl⟩ := List.mem_map.mp ht
    exact (plain_text v).append (Plain.cons (by decide) (Plain.cons (by decide) plain_nil))

theorem mapM_ok_mem {α β : Type} (f : α → Except Err β) : ∀ {l : List α} {r : List β}, l.mapM f = .ok r →
    ∀ x ∈ r, ∃ a ∈ l, f a = .ok x := by
  intro l
  induction l with
  | nil => intro r h x hx; simp [pure, Except.pure] at h; subst h; simp at hx
  | cons a l ih =>
    intro r h x hx
    rw [List.mapM_cons] at h
    cases hf : f a with
    | error e => rw [hf] at h; simp [bind, Except.bind] at h
    | ok b =>
      rw [hf] at h
      cases hl : l.mapM f with
      | error e => rw [hl] at h; simp [bind, Except.bind] at h
      | ok bs =>
        rw [hl] at h
        simp only [bind, Except.bind, pure, Except.pure, Except.ok.injEq] at h
        subst h
        rcases List.mem_cons.mp hx with rfl | hx
        · exact ⟨a, by simp, hf⟩
        · obtain ⟨a', ha', h'⟩ := ih hl x hx
          exact ⟨a', by simp [ha'], h'⟩

theorem plain_description {o : Printed.Obj} (hn : ∀ n ∈ o.names, Plain n) {d : List Char}
    (h : Printed.description o = .ok d) : Plain d := by
  unfold Printed.description at h
  split_ifs at h with hf
  · simp only [Except.ok.injEq] at h; subst h; exact plain_nil
  · cases hm : (o.names.zip o.params).mapM (fun nv => Printed.item nv.1 nv.2) with
    | error e => rw [hm] at h; simp [bind, Except.bind] at h
    | ok items =>
      rw [hm] at h
      simp only [bind, Except.bind, pure, Except.pure, Except.ok.injEq] at h
      subst h
      refine plain_strip (plain_flatten ?_)
      intro t ht
      obtain ⟨nv, hnv, e⟩ := mapM_ok_mem _ hm t ht
      exact plain_item (hn _ (List.of_mem_zip hnv).1) e

/-! ## The catalogue -/

theorem cut_join (names : List (List Char)) (h0 : names ≠ []) (h : ∀ n ∈ names, ',' ∉ n) :
    cutCommas [] (join ", ".toList names) = names := by
  have step : ∀ (a cur t : List Char), ',' ∉ a → cutCommas cur (a ++ ',' :: ' ' :: t) = (cur ++ a) :: cutCommas [] t := by
    intro a
    induction a with
    | nil => intro cur t _; simp [cutCommas]
    | cons c a ih =>
      intro cur t hc
      simp only [List.mem_cons, not_or] at hc
      rw [List.cons_append]
      rw [cutCommas]
      · rw [ih _ _ hc.2]; simp
      · intro x t' e; exact fun _ => hc.1 e.symm
  have last : ∀ (a cur : List Char), ',' ∉ a → cutCommas cur a = [cur ++ a] := by
    intro a
    induction a with
    | nil => intro cur _; simp [cutCommas]
    | cons c a ih =>
      intro cur hc
      simp only [List.mem_cons, not_or] at hc
      rw [cutCommas]
      · rw [ih _ hc.2]; simp
      · intro x t' e; exact fun _ => hc.1 e.symm
  induction names with
  | nil => exact absurd rfl h0
  | cons a l ih =>
    cases l with
    | nil => simp only [join]; rw [last _ _ (h a (by simp))]; simp
    | cons b l =>
      simp only [join]
      rw [show a ++ ", ".toList ++ join ", ".toList (b :: l) = a ++ ',' :: ' ' :: join ", ".toList (b :: l) by simp,
        step _ _ _ (h a (by simp)), ih (by simp) (fun n hn => h n (by simp [List.mem_cons.mp hn]))]
      simp

theorem readNat_decimal (n : ℕ) : readNat (decimal n) = some n := by
  unfold decimal
  split_ifs with h
  · subst h; decide
  · rw [Printed.readNat_chars, Printed.ofD_digits]
    · simpa [Nat.digits_eq_nil_iff_eq_zero] using h
    · intro d hd; exact Nat.digits_lt_base (by norm_num) (List.mem_reverse.mp hd)

theorem join_mem {sep : List Char} {l : List (List Char)} {c : Char} (h : c ∈ join sep l) :
    c ∈ sep ∨ ∃ n ∈ l, c ∈ n := by
  induction l with
  | nil => simp [join] at h
  | cons a l ih =>
    cases l with
    | nil => exact .inr ⟨a, by simp, by simpa [join] using h⟩
    | cons b l =>
      simp only [join, List.mem_append] at h
      rcases h with (h | h) | h
      · exact .inr ⟨a, by simp, h⟩
      · exact .inl h
      · rcases ih h with h | ⟨n, hn, hc⟩
        · exact .inl h
        · exact .inr ⟨n, by simp [List.mem_cons.mp hn], hc⟩

theorem digitChar_noBreak (n : ℕ) : n.digitChar ≠ '\n' := by
  by_cases h : n < 16
  · interval_cases n <;> decide
  · unfold Nat.digitChar
    repeat rw [if_neg (by omega)]
    decide

theorem decimal_noBreak (n : ℕ) : '\n' ∉ decimal n := by
  unfold decimal
  split_ifs
  · decide
  · intro h
    obtain ⟨d, -, hd⟩ := List.mem_map.mp h
    exact digitChar_noBreak d hd

theorem decimal_plain (n : ℕ) : Plain (decimal n) := by
  unfold decimal
  split_ifs
  · exact Plain.cons (by decide) plain_nil
  · exact plain_chars _

theorem lines_step {a : List Char} (h : '\n' ∉ a) (cur t : List Char) :
    linesFrom cur (a ++ '\n' :: t) = (cur ++ a) :: linesFrom [] t := by
  induction a generalizing cur with
  | nil => simp [linesFrom]
  | cons c a ih =>
    simp only [List.mem_cons, not_or] at h
    rw [List.cons_append, linesFrom, if_neg (Ne.symm h.1), ih h.2]; simp

theorem lines_last {a : List Char} (h : '\n' ∉ a) (cur : List Char) : linesFrom cur a = [cur ++ a] := by
  induction a generalizing cur with
  | nil => simp [linesFrom]
  | cons c a ih =>
    simp only [List.mem_cons, not_or] at h
    rw [linesFrom, if_neg (Ne.symm h.1), ih h.2]; simp

end Verif.Overview
