import Verif.Lemmas.Printed

/-!
# Reading the text of a printed distribution
-/

namespace Verif.Printed
open Verif Verif.Spec

theorem text_read (v : Num) : ∃ y, readFigure v.text = some y ∧ v.Reads y := by
  cases v with
  | real x =>
    obtain ⟨y, hy, hn⟩ := g3_read x
    refine ⟨.real y, ?_, hn⟩
    have n1 : readNumber "inf".toList = none := by simp [readNumber, readUnsigned, readMantissa, readNat, digitOf]
    have n2 : readNumber "-inf".toList = none := by simp [readNumber, readUnsigned, readMantissa, readNat, digitOf]
    have n3 : readNumber "nan".toList = none := by simp [readNumber, readUnsigned, readMantissa, readNat, digitOf]
    have ne : ∀ {t : List Char}, readNumber t = none → g3 x ≠ t := by
      rintro t h rfl; rw [hy] at h; cases h
    unfold readFigure Num.text
    rw [if_neg (ne n1), if_neg (ne n2), if_neg (ne n3), hy]; rfl
  | posInf => exact ⟨.posInf, rfl, trivial⟩
  | negInf => exact ⟨.negInf, rfl, trivial⟩
  | nan => exact ⟨.nan, rfl, trivial⟩

theorem text_plain (v : Num) : (∀ c ∈ v.text, c ∉ seps) ∧ v.text ≠ [] := by
  cases v with
  | real x => exact g3_plain x
  | posInf => exact ⟨by decide, by decide⟩
  | negInf => exact ⟨by decide, by decide⟩
  | nan => exact ⟨by decide, by decide⟩

/-! ## Stripping and joining -/

/-- `", ".join` -/
def joinC : List (List Char) → List Char
  | [] => []
  | [a] => a
  | a :: b :: r => a ++ ',' :: ' ' :: joinC (b :: r)

theorem flatten_joinC (l : List (List Char)) (h : l ≠ []) : (l.map (· ++ [',', ' '])).flatten = joinC l ++ [',', ' '] := by
  induction l with
  | nil => exact absurd rfl h
  | cons a l ih =>
    cases l with
    | nil => simp [joinC]
    | cons b r =>
      rw [List.map_cons, List.flatten_cons, ih (by simp)]
      simp [joinC]

theorem dropWhile_self {p : Char → Bool} {c : Char} {l : List Char} (h : p c = false) : (c :: l).dropWhile p = c :: l := by
  rw [List.dropWhile_cons_of_neg (by simpa using h)]

theorem strip_sep {l : List Char} (h1 : ∀ c, l.head? = some c → c ∉ seps) (h2 : ∀ c, l.getLast? = some c → c ∉ [',', ' '])
    (hne : l ≠ []) : pyStrip [',', ' '] (l ++ [',', ' ']) = l := by
  obtain ⟨c, t, rfl⟩ := List.exists_cons_of_ne_nil hne
  have hc : [',', ' '].contains c = false := by
    have := h1 c rfl
    simp only [seps, List.mem_cons, not_or] at this
    simp [this.1, this.2.1]
  unfold pyStrip
  rw [List.cons_append, dropWhile_self hc, ← List.cons_append, List.reverse_append]
  obtain ⟨i, d, hid⟩ : ∃ i d, c :: t = i ++ [d] := ⟨_, _, (List.dropLast_append_getLast (l := c :: t) (by simp)).symm⟩
  have hd : [',', ' '].contains d = false := by
    have := h2 d (by rw [hid]; simp)
    simp only [List.mem_cons, not_or] at this
    simp [this.1, this.2.1]
  rw [hid]
  simp only [List.reverse_append, List.reverse_cons, List.reverse_nil, List.nil_append, List.cons_append]
  rw [List.dropWhile_cons_of_pos (by decide), List.dropWhile_cons_of_pos (by decide), dropWhile_self hd]
  simp

theorem joinC_head (a : List Char) (r : List (List Char)) (ha : a ≠ []) : (joinC (a :: r)).head? = a.head? := by
  obtain ⟨c, t, rfl⟩ := List.exists_cons_of_ne_nil ha
  cases r <;> rfl

theorem joinC_last (l : List (List Char)) (h : ∀ t ∈ l, t ≠ []) :
    ∀ c, (joinC l).getLast? = some c → ∃ t ∈ l, t.getLast? = some c := by
  induction l with
  | nil => simp [joinC]
  | cons a l ih =>
    cases l with
    | nil => intro c hc; exact ⟨a, by simp, hc⟩
    | cons b r =>
      intro c hc
      have hne : joinC (b :: r) ≠ [] := by
        intro h0
        have := joinC_head b r (h b (by simp))
        rw [h0] at this
        obtain ⟨x, t, e⟩ := List.exists_cons_of_ne_nil (h b (by simp))
        rw [e] at this; simp at this
      have : (joinC (a :: b :: r)).getLast? = (joinC (b :: r)).getLast? := by
        obtain ⟨x, t, e⟩ := List.exists_cons_of_ne_nil hne
        simp only [joinC]
        rw [e]
        rw [List.getLast?_append, List.getLast?_cons_cons, List.getLast?_cons_cons, List.getLast?_cons]
        rfl
      rw [this] at hc
      obtain ⟨t, ht, e⟩ := ih (fun t ht => h t (by simp only [List.mem_cons] at ht ⊢; tauto)) c hc
      exact ⟨t, List.mem_cons_of_mem _ ht, e⟩

/-! ## Cutting -/

theorem cutCommas_pre (t : List Char) (h : ',' ∉ t) : ∀ cur r, cutCommas cur (t ++ r) = cutCommas (cur ++ t) r := by
  induction t with
  | nil => simp
  | cons c t ih =>
    intro cur r
    simp only [List.mem_cons, not_or] at h
    have hc : c ≠ ',' := fun e => h.1 e.symm
    have : cutCommas cur (c :: (t ++ r)) = cutCommas (cur ++ [c]) (t ++ r) := by
      rw [cutCommas.eq_def]
      split
      · rename_i heq; cases heq
      · rename_i heq; exact absurd (List.cons.inj heq).1 hc
      · rename_i heq; obtain ⟨rfl, rfl⟩ := List.cons.inj heq; rfl
    rw [List.cons_append, this, ih h.2]
    simp

theorem cutCommas_join (l : List (List Char)) (hne : l ≠ []) (h : ∀ t ∈ l, ',' ∉ t) : cutCommas [] (joinC l) = l := by
  induction l with
  | nil => exact absurd rfl hne
  | cons a l ih =>
    cases l with
    | nil =>
      have := cutCommas_pre a (h a (by simp)) [] []
      rw [List.append_nil] at this
      rw [joinC, this]; simp [cutCommas]
    | cons b r =>
      rw [joinC, cutCommas_pre a (h a (by simp))]
      simp only [List.nil_append, cutCommas]
      rw [ih (by simp) (fun t ht => h t (List.mem_cons_of_mem _ ht))]

theorem cutItems_pre (t : List Char) (h : ∀ c ∈ t, c ∉ ['[', ',']) :
    ∀ cur r, cutItems false cur (t ++ r) = cutItems false (cur ++ t) r := by
  induction t with
  | nil => simp
  | cons c t ih =>
    intro cur r
    have hc := h c (by simp)
    simp only [List.mem_cons, not_or] at hc
    have : cutItems false cur (c :: (t ++ r)) = cutItems false (cur ++ [c]) (t ++ r) := by
      rw [cutItems.eq_def]
      split
      · rename_i heq; cases heq
      · rename_i hb _; cases hb
      · rename_i heq; exact absurd (List.cons.inj heq).1 hc.1
      · rename_i heq; exact absurd (List.cons.inj heq).1 hc.2.1
      · rename_i heq _ _ _; obtain ⟨rfl, rfl⟩ := List.cons.inj heq; rfl
    rw [List.cons_append, this, ih (fun x hx => h x (by simp [hx]))]
    simp

theorem cutItems_in (t : List Char) (h : ']' ∉ t) :
    ∀ cur r, cutItems true cur (t ++ r) = cutItems true (cur ++ t) r := by
  induction t with
  | nil => simp
  | cons c t ih =>
    intro cur r
    simp only [List.mem_cons, not_or] at h
    have : cutItems true cur (c :: (t ++ r)) = cutItems true (cur ++ [c]) (t ++ r) := by
      rw [cutItems.eq_def]
      split
      · rename_i heq; cases heq
      · rename_i heq; exact absurd (List.cons.inj heq).1 (fun e => h.1 e.symm)
      · rename_i hb _; cases hb
      · rename_i hb _; cases hb
      · rename_i heq _ _ _; obtain ⟨rfl, rfl⟩ := List.cons.inj heq; rfl
    rw [List.cons_append, this, ih h.2]
    simp

/-- a text that is not cut -/
def Whole (t : List Char) : Prop := ∀ cur r, cutItems false cur (t ++ r) = cutItems false (cur ++ t) r

theorem cutItems_join (l : List (List Char)) (hne : l ≠ []) (h : ∀ t ∈ l, Whole t) : cutItems false [] (joinC l) = l := by
  induction l with
  | nil => exact absurd rfl hne
  | cons a l ih =>
    cases l with
    | nil =>
      have := h a (by simp) [] []
      rw [List.append_nil] at this
      rw [joinC, this]; simp [cutItems]
    | cons b r =>
      rw [joinC, h a (by simp)]
      simp only [List.nil_append, cutItems]
      rw [ih (by simp) (fun t ht => h t (List.mem_cons_of_mem _ ht))]

/-! ## Items -/

/-- the text of a value -/
noncomputable def body : Value → List Char
  | .missing => []
  | .num v => v.text
  | .vec l => '[' :: joinC (l.map Num.text) ++ [']']

theorem joinC_chars (l : List (List Char)) (P : Char → Prop) (h : ∀ t ∈ l, ∀ c ∈ t, P c) (h1 : P ',') (h2 : P ' ') :
    ∀ c ∈ joinC l, P c := by
  induction l with
  | nil => simp [joinC]
  | cons a l ih =>
    cases l with
    | nil => exact h a (by simp)
    | cons b r =>
      intro c hc
      simp only [joinC, List.mem_append, List.mem_cons] at hc
      rcases hc with hc | rfl | rfl | hc
      · exact h a (by simp) c hc
      · exact h1
      · exact h2
      · exact ih (fun t ht => h t (List.mem_cons_of_mem _ ht)) c hc

theorem strip_texts (l : List Num) : pyStrip [',', ' '] (l.map fun v => v.text ++ [',', ' ']).flatten = joinC (l.map Num.text) := by
  cases l with
  | nil => rfl
  | cons v l =>
    have e : ((v :: l).map fun v => v.text ++ [',', ' ']) = ((v :: l).map Num.text).map (· ++ [',', ' ']) := by simp
    rw [e, flatten_joinC _ (by simp)]
    have hne := (text_plain v).2
    have hh := joinC_head v.text (l.map Num.text) hne
    refine strip_sep ?_ ?_ ?_
    · intro c hc
      rw [List.map_cons, hh] at hc
      exact (text_plain v).1 c (List.mem_of_mem_head? hc)
    · intro c hc
      obtain ⟨t, ht, e⟩ := joinC_last _ (by intro t ht; obtain ⟨w, _, rfl⟩ := List.mem_map.mp ht; exact (text_plain w).2) c hc
      obtain ⟨w, _, rfl⟩ := List.mem_map.mp ht
      have := (text_plain w).1 c (List.mem_of_getLast? e)
      simp only [seps, List.mem_cons, not_or] at this ⊢
      exact ⟨this.1, this.2.1, by simp⟩
    · intro h0
      rw [List.map_cons] at h0
      rw [h0] at hh
      obtain ⟨x, t, e⟩ := List.exists_cons_of_ne_nil hne
      rw [e] at hh; simp at hh

theorem item_eq (n : List Char) (v : Value) (h : v ≠ .missing) : item n v = .ok (n ++ '=' :: body v ++ [',', ' ']) := by
  cases v with
  | missing => exact absurd rfl h
  | num v => rfl
  | vec l => simp only [item, strip_texts, body]; simp

theorem body_whole (n : List Char) (hn : ∀ c ∈ n, c ∉ seps) (v : Value) : Whole (n ++ '=' :: body v) := by
  have hn' : ∀ c ∈ n ++ ['='], c ∉ ['[', ','] := by
    intro c hc
    simp only [List.mem_append, List.mem_cons, List.not_mem_nil, or_false] at hc
    rcases hc with hc | rfl
    · have := hn c hc
      simp only [seps, List.mem_cons, not_or] at this ⊢
      exact ⟨this.2.2.1, this.1, by simp⟩
    · decide
  have split : ∀ b r : List Char, n ++ '=' :: b ++ r = (n ++ ['=']) ++ (b ++ r) := by intro b r; simp
  intro cur r
  rw [split, cutItems_pre _ hn']
  cases v with
  | missing => simp [body]
  | num v =>
    rw [body, cutItems_pre]
    · simp
    · intro c hc
      have := (text_plain v).1 c hc
      simp only [seps, List.mem_cons, not_or] at this ⊢
      exact ⟨this.2.2.1, this.1, by simp⟩
  | vec l =>
    have hb : ']' ∉ joinC (l.map Num.text) := by
      intro hc
      have := joinC_chars (l.map Num.text) (· ≠ ']') (by
        intro t ht c hc
        obtain ⟨w, _, rfl⟩ := List.mem_map.mp ht
        have := (text_plain w).1 c hc
        simp only [seps, List.mem_cons, not_or] at this
        exact this.2.2.2.1) (by decide) (by decide) _ hc
      exact this rfl
    have e : body (.vec l) ++ r = '[' :: (joinC (l.map Num.text) ++ (']' :: r)) := by simp [body]
    rw [e]
    have s1 : ∀ cur t, cutItems false cur ('[' :: t) = cutItems true (cur ++ ['[']) t := by
      intro cur t; simp [cutItems]
    have s2 : ∀ cur t, cutItems true cur (']' :: t) = cutItems false (cur ++ [']']) t := by
      intro cur t; simp [cutItems]
    rw [s1, cutItems_in _ hb, s2]
    simp [body]

theorem readValue_body (v : Value) (h : v ≠ .missing) : ∃ s, readValue (body v) = some s ∧ v.Reads s := by
  cases v with
  | missing => exact absurd rfl h
  | num v =>
    obtain ⟨y, hy, hr⟩ := text_read v
    obtain ⟨hp, hne⟩ := text_plain v
    refine ⟨.num y, ?_, hr⟩
    obtain ⟨c, t, e⟩ := List.exists_cons_of_ne_nil hne
    have hc : c ≠ '[' := by
      have := hp c (by rw [e]; simp)
      simp only [seps, List.mem_cons, not_or] at this
      exact this.2.2.1
    unfold readValue
    simp only [body]
    split
    · rename_i heq; rw [e] at heq; exact absurd (List.cons.inj heq).1 hc
    · rename_i heq; rw [e] at heq; exact absurd (List.cons.inj heq).1 hc
    · rw [hy]; rfl
  | vec l =>
    have hl : ∃ ys, (l.map Num.text).mapM readFigure = some ys ∧ List.Forall₂ Num.Reads l ys := by
      induction l with
      | nil => exact ⟨[], rfl, .nil⟩
      | cons v l ih =>
        obtain ⟨ys, h1, h2⟩ := ih (by simp)
        obtain ⟨y, hy, hr⟩ := text_read v
        refine ⟨y :: ys, ?_, .cons hr h2⟩
        rw [List.map_cons, List.mapM_cons, hy, h1]; rfl
    obtain ⟨ys, h1, h2⟩ := hl
    refine ⟨.vec ys, ?_, h2⟩
    cases l with
    | nil =>
      cases h2
      rfl
    | cons v l =>
      have hne : joinC ((v :: l).map Num.text) ≠ [] := by
        intro h0
        have := joinC_head v.text (l.map Num.text) (text_plain v).2
        rw [List.map_cons] at h0
        rw [h0] at this
        obtain ⟨x, t, e⟩ := List.exists_cons_of_ne_nil (text_plain v).2
        rw [e] at this; simp at this
      have e : body (.vec (v :: l)) = '[' :: (joinC ((v :: l).map Num.text) ++ [']']) := by simp [body]
      rw [e]
      unfold readValue
      split
      · rename_i heq
        have := (List.cons.inj heq).2
        have := congrArg List.length this
        simp at this
        exact absurd this hne
      · rename_i heq
        have := (List.cons.inj heq).2
        rw [← this, List.dropLast_concat, cutCommas_join _ (by simp), h1]
        · rfl
        · intro t ht hc
          obtain ⟨w, _, rfl⟩ := List.mem_map.mp ht
          exact (text_plain w).1 _ hc (by simp [seps])
      · rename_i h3; exact absurd rfl (h3 _)

theorem body_ends (v : Value) (h : v ≠ .missing) : ∃ c, (body v).getLast? = some c ∧ c ∉ [',', ' '] := by
  cases v with
  | missing => exact absurd rfl h
  | num v =>
    obtain ⟨hp, hne⟩ := text_plain v
    refine ⟨_, List.getLast?_eq_getLast_of_ne_nil hne, ?_⟩
    have := hp _ (List.getLast_mem hne)
    simp only [seps, List.mem_cons, not_or] at this ⊢
    exact ⟨this.1, this.2.1, by simp⟩
  | vec l => exact ⟨']', by rw [body, List.getLast?_append]; rfl, by decide⟩

theorem readItem_text (n : List Char) (hn : ∀ c ∈ n, c ∉ seps) (v : Value) (h : v ≠ .missing) :
    ∃ s, readItem (n ++ '=' :: body v) = some (n, s) ∧ v.Reads s := by
  obtain ⟨s, hs, hr⟩ := readValue_body v h
  obtain ⟨i1, i2⟩ := cut_at (a := n) (b := body v) (x := '=') (fun hc => hn _ hc (by simp [seps]))
  refine ⟨s, ?_, hr⟩
  unfold readItem
  rw [i1, i2]
  simp [hs]

theorem items_read (l : List (List Char × Value)) (h : ∀ p ∈ l, (∀ c ∈ p.1, c ∉ seps) ∧ p.2 ≠ .missing) :
    ∃ r, (l.map fun p => p.1 ++ '=' :: body p.2).mapM readItem = some r ∧
      List.Forall₂ (fun p q => p.1 = q.1 ∧ p.2.Reads q.2) l r := by
  induction l with
  | nil => exact ⟨[], rfl, .nil⟩
  | cons p l ih =>
    obtain ⟨r, h1, h2⟩ := ih (fun q hq => h q (List.mem_cons_of_mem _ hq))
    obtain ⟨s, hs, hr⟩ := readItem_text p.1 (h p (by simp)).1 p.2 (h p (by simp)).2
    refine ⟨(p.1, s) :: r, ?_, .cons ⟨rfl, hr⟩ h2⟩
    rw [List.map_cons, List.mapM_cons, hs, h1]; rfl

theorem mapM_items (l : List (List Char × Value)) (h : ∀ p ∈ l, p.2 ≠ .missing) :
    (l.mapM fun nv => item nv.1 nv.2) = .ok (l.map fun p => p.1 ++ '=' :: body p.2 ++ [',', ' ']) := by
  induction l with
  | nil => rfl
  | cons p l ih =>
    rw [List.mapM_cons, item_eq p.1 p.2 (h p (by simp)), ih (fun q hq => h q (List.mem_cons_of_mem _ hq))]
    rfl

theorem mapM_missing (l : List (List Char × Value)) (h : ∃ p ∈ l, p.2 = .missing) :
    (l.mapM fun nv => item nv.1 nv.2) = .error .typeError := by
  induction l with
  | nil => simp at h
  | cons p l ih =>
    rw [List.mapM_cons]
    by_cases hp : p.2 = .missing
    · rw [hp]; rfl
    · rw [item_eq _ _ hp, ih (by
        obtain ⟨q, hq, e⟩ := h
        rcases List.mem_cons.mp hq with rfl | hq
        · exact absurd e hp
        · exact ⟨q, hq, e⟩)]
      rfl

/-- the text is the name and, in brackets, `name=value` separated by commas -/
theorem repr_text (o : Obj) (hf : o.frozen = true) (hm : ∀ v ∈ o.params, v ≠ .missing)
    (hn : ∀ n ∈ o.names, n ≠ [] ∧ ∀ c ∈ n, c ∉ seps) :
    repr o = .ok (o.name ++ '(' :: joinC ((o.names.zip o.params).map fun p => p.1 ++ '=' :: body p.2) ++ [')']) := by
  have hz : ∀ p ∈ o.names.zip o.params, (p.1 ≠ [] ∧ ∀ c ∈ p.1, c ∉ seps) ∧ p.2 ≠ .missing := by
    intro p hp
    exact ⟨hn _ (List.of_mem_zip hp).1, hm _ (List.of_mem_zip hp).2⟩
  unfold repr description
  rw [hf, mapM_items _ (fun p hp => (hz p hp).2)]
  have key : pyStrip [',', ' '] ((o.names.zip o.params).map fun p => p.1 ++ '=' :: body p.2 ++ [',', ' ']).flatten =
      joinC ((o.names.zip o.params).map fun p => p.1 ++ '=' :: body p.2) := by
    generalize o.names.zip o.params = l at hz
    cases l with
    | nil => rfl
    | cons p l =>
      have e : ((p :: l).map fun p => p.1 ++ '=' :: body p.2 ++ [',', ' ']) =
        ((p :: l).map fun p => p.1 ++ '=' :: body p.2).map (· ++ [',', ' ']) := by simp
      rw [e, flatten_joinC _ (by simp)]
      have hh := joinC_head (p.1 ++ '=' :: body p.2) (l.map fun p => p.1 ++ '=' :: body p.2) (by simp)
      obtain ⟨c, t, ec⟩ := List.exists_cons_of_ne_nil (hz p (by simp)).1.1
      refine strip_sep ?_ ?_ ?_
      · intro x hx
        rw [List.map_cons, hh, ec] at hx
        simp at hx
        exact hx ▸ (hz p (by simp)).1.2 c (by rw [ec]; simp)
      · intro x hx
        obtain ⟨t, ht, e⟩ := joinC_last _ (by intro t ht; obtain ⟨w, _, rfl⟩ := List.mem_map.mp ht; simp) x hx
        obtain ⟨q, hq, rfl⟩ := List.mem_map.mp ht
        obtain ⟨y, hy, hns⟩ := body_ends q.2 (hz q hq).2
        have : (q.1 ++ '=' :: body q.2).getLast? = some y := by
          rw [List.getLast?_append, List.getLast?_cons, hy]; simp
        rw [this] at e
        exact Option.some.inj e ▸ hns
      · intro h0
        rw [List.map_cons] at h0
        rw [h0, ec] at hh
        simp at hh
  simp only [Bool.not_true, Bool.false_eq_true, if_false, if_true, Except.ok_bind', Except.pure_eq, key]

theorem repr_read (o : Obj) (hf : o.frozen = true) (hp : '(' ∉ o.name) (hm : ∀ v ∈ o.params, v ≠ .missing)
    (hn : ∀ n ∈ o.names, n ≠ [] ∧ ∀ c ∈ n, c ∉ seps) :
    ∃ t r, repr o = .ok t ∧ readPrinted t = some (o.name, r) ∧
      List.Forall₂ (fun p q => p.1 = q.1 ∧ p.2.Reads q.2) (o.names.zip o.params) r := by
  have hz : ∀ p ∈ o.names.zip o.params, (∀ c ∈ p.1, c ∉ seps) ∧ p.2 ≠ .missing := by
    intro p hp
    exact ⟨(hn _ (List.of_mem_zip hp).1).2, hm _ (List.of_mem_zip hp).2⟩
  obtain ⟨r, h1, h2⟩ := items_read _ hz
  refine ⟨_, r, repr_text o hf hm hn, ?_, h2⟩
  generalize o.names.zip o.params = l at *
  have e : o.name ++ '(' :: joinC (l.map fun p => p.1 ++ '=' :: body p.2) ++ [')'] =
    o.name ++ '(' :: (joinC (l.map fun p => p.1 ++ '=' :: body p.2) ++ [')']) := by simp
  obtain ⟨i1, i2⟩ := cut_at (a := o.name) (b := joinC (l.map fun p => p.1 ++ '=' :: body p.2) ++ [')']) (x := '(') hp
  rw [e]
  unfold readPrinted
  rw [i1, i2]
  cases l with
  | nil =>
    cases h2
    rfl
  | cons p l =>
    have hne : joinC ((p :: l).map fun p => p.1 ++ '=' :: body p.2) ≠ [] := by
      intro h0
      have := joinC_head (p.1 ++ '=' :: body p.2) (l.map fun p => p.1 ++ '=' :: body p.2) (by simp)
      rw [List.map_cons] at h0
      rw [h0] at this
      simp at this
    split
    · rename_i heq
      have := congrArg List.length (List.cons.inj heq).2
      simp at this
      exact absurd this hne
    · rename_i heq
      rw [← (List.cons.inj heq).2, List.dropLast_concat, cutItems_join _ (by simp), h1]
      · rfl
      · intro t ht
        obtain ⟨q, hq, rfl⟩ := List.mem_map.mp ht
        exact body_whole _ (hz q hq).1 _
    · rename_i h3; exact absurd rfl (h3 _)

end Verif.Printed
