import Verif.Model.WarnText
import Verif.Spec.WarnText
import Verif.Lemmas.PrintedP
import Verif.Props.Warnings
import Verif.Props.Printed

/-!
# C115: what the warnings of the elicitation functions show
-/

namespace Verif.Props
open Verif Verif.Modifier Verif.WarnText Verif.Spec Verif.Printed

/-! ### Words and lines -/

private theorem words_sep (a t cur : List Char) (c : Char) (hc : c = ' ' ∨ c = '\n') :
    wordsOf cur (a ++ c :: t) = wordsOf cur a ++ wordsOf [] t := by
  induction a generalizing cur with
  | nil => simp [wordsOf, hc]
  | cons d a ih =>
    rw [List.cons_append, wordsOf, wordsOf]
    split_ifs
    · rw [ih]; rfl
    · exact ih _

private theorem words_plain (a cur : List Char) (h : ∀ c ∈ a, c ≠ ' ' ∧ c ≠ '\n') : wordsOf cur a = [cur ++ a] := by
  induction a generalizing cur with
  | nil => simp [wordsOf]
  | cons d a ih =>
    have h1 := h d (by simp)
    rw [wordsOf, if_neg (by tauto), ih _ fun c hc => h c (by simp [hc])]
    simp

private theorem num_sep {c : Char} (h : c ∈ numChars) : c ≠ ' ' ∧ c ≠ '\n' ∧ c ≠ ',' ∧ c ≠ ':' := by
  refine ⟨?_, ?_, ?_, ?_⟩ <;> rintro rfl <;> revert h <;> decide +kernel

private theorem readNat_none {w : List Char} (h : ∀ c ∈ w, digitOf c = none) : readNat w = none := by
  unfold readNat
  cases w with
  | nil => simp
  | cons c w => simp [h c (by simp)]

private theorem readUnsigned_none {w : List Char} (h : ∀ c ∈ w, digitOf c = none) : readUnsigned w = none := by
  have m : ∀ v : List Char, (∀ c ∈ v, digitOf c = none) → readMantissa v = none := by
    intro v hv
    unfold readMantissa
    split
    · rw [readNat_none hv]; rfl
    · rw [readNat_none fun c hc => hv c ((List.takeWhile_prefix _).subset hc)]
  unfold readUnsigned
  split
  · exact m w h
  · rw [m _ fun c hc => h c ((List.takeWhile_prefix _).subset hc)]
  · rw [m _ fun c hc => h c ((List.takeWhile_prefix _).subset hc)]
  · rfl

private theorem readNumber_none {w : List Char} (h : ∀ c ∈ w, digitOf c = none) : readNumber w = none := by
  unfold readNumber
  split
  · rw [readUnsigned_none fun c hc => h c (List.mem_cons_of_mem _ hc)]; rfl
  · exact readUnsigned_none h

private theorem words_sub (a cur : List Char) : ∀ w ∈ wordsOf cur a, ∀ c ∈ w, c ∈ cur ∨ c ∈ a := by
  induction a generalizing cur with
  | nil => intro w hw c hc; simp only [wordsOf, List.mem_singleton] at hw; subst hw; exact Or.inl hc
  | cons d a ih =>
    intro w hw c hc
    rw [wordsOf] at hw
    split_ifs at hw
    · rcases List.mem_cons.mp hw with rfl | hw
      · exact Or.inl hc
      · rcases ih [] w hw c hc with h | h
        · simp at h
        · exact Or.inr (by simp [h])
    · rcases ih _ w hw c hc with h | h
      · rcases List.mem_append.mp h with h | h
        · exact Or.inl h
        · simp only [List.mem_singleton] at h; subst h; exact Or.inr (by simp)
      · exact Or.inr (by simp [h])

private theorem numbers_none {a : List Char} (h : ∀ c ∈ a, digitOf c = none) : numbersIn a = [] := by
  unfold numbersIn
  rw [List.filterMap_eq_nil_iff]
  intro w hw
  refine readNumber_none fun c hc => ?_
  rcases words_sub a [] w hw c (List.mem_of_mem_filter hc) with h1 | h1
  · simp at h1
  · exact h c h1

private theorem numbers_sep (a t : List Char) (c : Char) (hc : c = ' ' ∨ c = '\n') :
    numbersIn (a ++ c :: t) = numbersIn a ++ numbersIn t := by
  unfold numbersIn
  rw [words_sep a t [] c hc, List.filterMap_append]

private theorem filter_num {p : ℕ} {x : ℝ} : (gFmt p x).filter (· ≠ ',') = gFmt p x := by
  rw [List.filter_eq_self]
  intro c hc
  simpa using (num_sep (gFmt_num p x c hc)).2.2.1

/-- a printed number, with or without a comma after it -/
private theorem numbers_one {p : ℕ} {x y : ℝ} (h : readNumber (gFmt p x) = some y) :
    numbersIn (gFmt p x) = [y] ∧ numbersIn (gFmt p x ++ [',']) = [y] := by
  have pl : ∀ c ∈ gFmt p x, c ≠ ' ' ∧ c ≠ '\n' := fun c hc => ⟨(num_sep (gFmt_num p x c hc)).1, (num_sep (gFmt_num p x c hc)).2.1⟩
  constructor
  · unfold numbersIn
    rw [words_plain _ [] pl]
    simp only [List.nil_append, List.filterMap_cons, List.filterMap_nil, filter_num, h]
  · unfold numbersIn
    rw [words_plain _ [] fun c hc => by
      rcases List.mem_append.mp hc with hc | hc
      · exact pl c hc
      · simp only [List.mem_singleton] at hc; subst hc; decide]
    simp only [List.nil_append, List.filterMap_cons, List.filterMap_nil, List.filter_append, filter_num]
    simp [h]

/-! ### maxent and quartile -/

/-- **C115**: the requested mass and the probability of the interval can be read in the warning of `maxent`, up to half a
percent; they look different if they differ by more than one percent. -/
theorem maxent_text_partial (b : Base) (lower upper mass : ℝ) (hle : lower ≤ upper) (hm : 0 < mass)
    (hl : b.discrete = true → ∃ n : ℤ, lower = n) :
    let P := b.law.real (Set.Icc lower upper)
    (maxentText b lower upper mass = none ↔ |P - mass| ≤ mass / 10000) ∧
    ∀ t, maxentText b lower upper mass = some t → ∃ y z, numbersIn t = [y, z] ∧ |y - mass| ≤ mass / 200 ∧ |z - P| ≤ P / 200 ∧
      ((mass + P) / 200 < |P - mass| → y ≠ z) := by
  intro P
  obtain ⟨h1, h2⟩ := maxent_silent_partial b lower upper mass hle hm hl
  have hP : 0 ≤ P := MeasureTheory.measureReal_nonneg
  constructor
  · rw [← h1]
    unfold maxentText
    cases Warnings.maxentWarns b lower upper mass <;> simp
  · intro t ht
    unfold maxentText at ht
    split_ifs at ht with hw
    rw [h2] at ht
    obtain ⟨y, hy, ny⟩ := gFmt_read (p := 3) (by norm_num) mass
    obtain ⟨z, hz, nz⟩ := gFmt_read (p := 3) (by norm_num) P
    rw [abs_of_pos hm] at ny
    rw [abs_of_nonneg hP] at nz
    norm_num at ny nz
    refine ⟨y, z, ?_, ny, nz, ?_⟩
    · have e : t = "\nThe requested mass is".toList ++ ' ' :: ((gFmt 3 mass ++ [',']) ++ '\n' ::
          ("but the computed one is".toList ++ ' ' :: gFmt 3 P)) := by
        rw [← Option.some.inj ht]
        simp [P]
      rw [e, numbers_sep _ _ _ (Or.inl rfl), numbers_sep _ _ _ (Or.inr rfl), numbers_sep _ _ _ (Or.inl rfl),
        numbers_none (by decide +kernel), (numbers_one hy).2, numbers_none (by decide +kernel), (numbers_one hz).1]
      rfl
    · rintro hd rfl
      have h := abs_sub_le P y mass
      rw [abs_sub_comm P y] at h
      linarith

/-- **C115**: a mass given with at most three digits is shown exactly -/
theorem maxent_text_exact (b : Base) (lower upper : ℝ) (m : ℤ) (h0 : 0 < m) (h1 : m < 1000) (k : ℤ) (t : List Char)
    (h : maxentText b lower upper (m * 10 ^ k) = some t) : ∃ z, numbersIn t = [(m : ℝ) * 10 ^ k, z] := by
  unfold maxentText at h
  split_ifs at h with hw
  have hy := printed_exact m (by rw [abs_of_pos h0]; exact h1) k
  rw [← gFmt_three] at hy
  obtain ⟨z, hz, nz⟩ := gFmt_read (p := 3) (by norm_num) (Warnings.relativeError b lower upper (m * 10 ^ k)).2
  refine ⟨z, ?_⟩
  generalize Warnings.relativeError b lower upper (m * 10 ^ k) = r at *
  have e : t = "\nThe requested mass is".toList ++ ' ' :: ((gFmt 3 (m * 10 ^ k) ++ [',']) ++ '\n' ::
      ("but the computed one is".toList ++ ' ' :: gFmt 3 r.2)) := by
    rw [← Option.some.inj h]
    simp
  rw [e, numbers_sep _ _ _ (Or.inl rfl), numbers_sep _ _ _ (Or.inr rfl), numbers_sep _ _ _ (Or.inl rfl),
    numbers_none (by decide +kernel), (numbers_one hy).2, numbers_none (by decide +kernel), (numbers_one hz).1]
  rfl

private theorem expected_numbers :
    numbersIn "\nThe expected masses are 0.25, 0.5, 0.75\nThe computed ones are:".toList = [0.25, 0.5, 0.75] := by
  have e : "\nThe expected masses are 0.25, 0.5, 0.75\nThe computed ones are:".toList =
      "\nThe expected masses are".toList ++ ' ' :: ((chars [0] ++ '.' :: chars [2, 5] ++ [',']) ++ ' ' ::
        ((chars [0] ++ '.' :: chars [5] ++ [',']) ++ ' ' :: ((chars [0] ++ '.' :: chars [7, 5]) ++ '\n' ::
          "The computed ones are:".toList))) := by decide +kernel
  have r : ∀ f : List ℕ, f ≠ [] → (∀ d ∈ f, d < 10) → dropZeros f = f →
      readNumber (chars [0] ++ '.' :: chars f) = some ((ofD f : ℝ) / 10 ^ f.length) := by
    intro f hf hd hz
    have h := readMantissa_withPoint [0] f (by simp) (by simp) hd
    have e2 : withPoint [0] f = chars [0] ++ '.' :: chars f := by
      unfold withPoint; simp only [hz, if_neg hf]
    rw [e2] at h
    have c0 : chars [0] ++ '.' :: chars f = Nat.digitChar 0 :: '.' :: chars f := rfl
    rw [c0, readNumber_digit (by norm_num), ← c0]
    unfold readUnsigned
    rw [cut_none, h]
    · simp [ofD]
    · intro hc
      simp only [List.mem_append, List.mem_cons] at hc
      rcases hc with hc | hc | hc
      · exact absurd (chars_plain (l := [0]) (by simp) 'e' hc) (by decide)
      · exact absurd hc (by decide)
      · exact absurd (chars_plain hd 'e' hc) (by decide)
  have w : ∀ (t : List Char) (y : ℝ), (∀ c ∈ t, c ≠ ' ' ∧ c ≠ '\n') → readNumber (t.filter (· ≠ ',')) = some y → numbersIn t = [y] := by
    intro t y h1 h2
    unfold numbersIn
    rw [words_plain _ [] h1]
    simp only [List.nil_append, List.filterMap_cons, List.filterMap_nil, h2]
  rw [e, numbers_sep _ _ _ (Or.inl rfl), numbers_sep _ _ _ (Or.inl rfl), numbers_sep _ _ _ (Or.inl rfl),
    numbers_sep _ _ _ (Or.inr rfl), numbers_none (by decide +kernel),
    numbers_none (a := "The computed ones are:".toList) (by decide +kernel),
    w (chars [0] ++ '.' :: chars [2, 5] ++ [',']) 0.25 (by decide +kernel) (by
      rw [show (chars [0] ++ '.' :: chars [2, 5] ++ [',']).filter (· ≠ ',') = chars [0] ++ '.' :: chars [2, 5] by decide +kernel,
        r [2, 5] (by simp) (by simp) (by decide +kernel)]
      norm_num [ofD]),
    w (chars [0] ++ '.' :: chars [5] ++ [',']) 0.5 (by decide +kernel) (by
      rw [show (chars [0] ++ '.' :: chars [5] ++ [',']).filter (· ≠ ',') = chars [0] ++ '.' :: chars [5] by decide +kernel,
        r [5] (by simp) (by simp) (by decide +kernel)]
      norm_num [ofD]),
    w (chars [0] ++ '.' :: chars [7, 5]) 0.75 (by decide +kernel) (by
      rw [show (chars [0] ++ '.' :: chars [7, 5]).filter (· ≠ ',') = chars [0] ++ '.' :: chars [7, 5] by decide +kernel,
        r [7, 5] (by simp) (by simp) (by decide +kernel)]
      norm_num [ofD])]
  rfl

/-- **C115**: in the warning of `quartile` one reads the expected masses and, up to five percent, the probabilities of values
up to the three requested quartiles. -/
theorem quartile_text (b : Base) (q1 q2 q3 : ℝ) (t : List Char) (h : quartileText b q1 q2 q3 = some t) :
    ∃ x y z, numbersIn t = [0.25, 0.5, 0.75, x, y, z] ∧
      |x - b.law.real (Set.Iic q1)| ≤ b.law.real (Set.Iic q1) / 20 ∧
      |y - b.law.real (Set.Iic q2)| ≤ b.law.real (Set.Iic q2) / 20 ∧
      |z - b.law.real (Set.Iic q3)| ≤ b.law.real (Set.Iic q3) / 20 := by
  unfold quartileText at h
  obtain ⟨l, hl, rfl⟩ := Option.map_eq_some_iff.mp h
  have hm := quartile_warning_masses b q1 q2 q3 l hl
  have key : ∀ q : ℝ, ∃ y, readNumber (gFmt 2 (b.law.real (Set.Iic q))) = some y ∧
      |y - b.law.real (Set.Iic q)| ≤ b.law.real (Set.Iic q) / 20 := by
    intro q
    obtain ⟨y, hy, ny⟩ := gFmt_read (p := 2) (by norm_num) (b.law.real (Set.Iic q))
    rw [abs_of_nonneg MeasureTheory.measureReal_nonneg] at ny
    norm_num at ny
    exact ⟨y, hy, ny⟩
  obtain ⟨x, hx, nx⟩ := key q1
  obtain ⟨y, hy, ny⟩ := key q2
  obtain ⟨z, hz, nz⟩ := key q3
  refine ⟨x, y, z, ?_, nx, ny, nz⟩
  subst hm
  have e : ∀ A B C : List Char, "\nThe expected masses are 0.25, 0.5, 0.75\nThe computed ones are: ".toList ++ A ++ ", ".toList ++
      B ++ ", ".toList ++ C = "\nThe expected masses are 0.25, 0.5, 0.75\nThe computed ones are:".toList ++ ' ' ::
        ((A ++ [',']) ++ ' ' :: ((B ++ [',']) ++ ' ' :: C)) := by
    intro A B C; simp
  show numbersIn ("\nThe expected masses are 0.25, 0.5, 0.75\nThe computed ones are: ".toList ++ gFmt 2 (b.law.real (Set.Iic q1)) ++
    ", ".toList ++ gFmt 2 (b.law.real (Set.Iic q2)) ++ ", ".toList ++ gFmt 2 (b.law.real (Set.Iic q3))) = _
  rw [e, numbers_sep _ _ _ (Or.inl rfl), numbers_sep _ _ _ (Or.inl rfl), numbers_sep _ _ _ (Or.inl rfl),
    expected_numbers, (numbers_one hx).2, (numbers_one hy).2, (numbers_one hz).1]
  rfl

/-! ### match_moments and match_quantiles -/

private theorem lines_sep (a t cur : List Char) : linesOf cur (a ++ '\n' :: t) = linesOf cur a ++ linesOf [] t := by
  induction a generalizing cur with
  | nil => simp [linesOf]
  | cons d a ih =>
    rw [List.cons_append, linesOf, linesOf]
    split_ifs
    · rw [ih]; rfl
    · exact ih _

private theorem lines_plain (a cur : List Char) (h : '\n' ∉ a) : linesOf cur a = [cur ++ a] := by
  induction a generalizing cur with
  | nil => simp [linesOf]
  | cons d a ih =>
    simp only [List.mem_cons, not_or] at h
    rw [linesOf, if_neg (fun e => h.1 e.symm), ih _ h.2]
    simp

private theorem lines_all (ls : List (List Char)) (h : ∀ l ∈ ls, '\n' ∉ l) (a : List Char) (ha : '\n' ∉ a) :
    linesOf [] (a ++ (ls.map fun l => '\n' :: l).flatten) = a :: ls := by
  induction ls generalizing a with
  | nil => simp [lines_plain a [] ha]
  | cons l ls ih =>
    rw [List.map_cons, List.flatten_cons, List.cons_append, lines_sep, lines_plain a [] ha,
      ih (fun x hx => h x (by simp [hx])) l (h l (by simp))]
    rfl

/-- the text of a row without the end of the line before it -/
private noncomputable def rowText (l : List Char) (t r : ℝ) : List Char :=
  ' ' :: '-' :: ' ' :: (l ++ ':' :: ' ' :: (gFmt 3 t ++ ' ' :: 'v' :: 's' :: ' ' :: gFmt 3 r))

private theorem rowText_read (l : List Char) (hl : ':' ∉ l) (t r : ℝ) : ∃ y z, readRow (rowText l t r) = some (l, y, z) ∧
    |y - t| ≤ |t| / 200 ∧ |z - r| ≤ |r| / 200 := by
  obtain ⟨y, hy, ny⟩ := gFmt_read (p := 3) (by norm_num) t
  obtain ⟨z, hz, nz⟩ := gFmt_read (p := 3) (by norm_num) r
  norm_num at ny nz
  refine ⟨y, z, ?_, ny, nz⟩
  obtain ⟨c1, c2⟩ := cut_at (a := l) (b := ' ' :: (gFmt 3 t ++ ' ' :: 'v' :: 's' :: ' ' :: gFmt 3 r)) hl
  have pl : ∀ x, ∀ c ∈ gFmt 3 x, c ≠ ' ' ∧ c ≠ '\n' := fun x c hc =>
    ⟨(num_sep (gFmt_num 3 x c hc)).1, (num_sep (gFmt_num 3 x c hc)).2.1⟩
  have hw : wordsOf [] (' ' :: (gFmt 3 t ++ ' ' :: 'v' :: 's' :: ' ' :: gFmt 3 r)) = [[], gFmt 3 t, ['v', 's'], gFmt 3 r] := by
    have e1 := words_sep [] (gFmt 3 t ++ ' ' :: 'v' :: 's' :: ' ' :: gFmt 3 r) [] ' ' (Or.inl rfl)
    have e2 := words_sep (gFmt 3 t) ('v' :: 's' :: ' ' :: gFmt 3 r) [] ' ' (Or.inl rfl)
    have e3 := words_sep ['v', 's'] (gFmt 3 r) [] ' ' (Or.inl rfl)
    rw [List.nil_append] at e1
    rw [List.cons_append, List.cons_append, List.nil_append] at e3
    rw [e1, e2, e3, words_plain _ [] (pl t), words_plain _ [] (pl r), words_plain ['v', 's'] [] (by decide)]
    rfl
  unfold readRow rowText
  simp only [c1, c2, hw, hy, hz]

private theorem rowText_line (l : List Char) (hl : '\n' ∉ l) (t r : ℝ) : '\n' ∉ rowText l t r := by
  have pl : ∀ x, '\n' ∉ gFmt 3 x := fun x hc => (num_sep (gFmt_num 3 x _ hc)).2.1 rfl
  simp only [rowText, List.mem_cons, List.mem_append, not_or]
  refine ⟨by decide, by decide, by decide, hl, by decide, by decide, pl t, by decide, by decide, by decide, by decide, pl r⟩

private theorem off_iff (tol r t : ℝ) : off tol r t = true ↔ tol / 100 * |t + 1e-6| < |r - t| := by
  unfold off
  split_ifs with h
  · rw [h, abs_zero, mul_zero, abs_pos, decide_eq_true_iff]
  · rw [decide_eq_true_iff, abs_mul, abs_div, abs_of_pos (by norm_num : (0 : ℝ) < 100), gt_iff_lt]
    have hp : 0 < |t + 1e-6| := abs_pos.2 h
    rw [div_mul_eq_mul_div, lt_div_iff₀ hp]
    constructor <;> intro h <;> linarith

private theorem mapM_ok' {α β : Type} (f : α → Except Err β) (g : α → β) (l : List α) (h : ∀ a ∈ l, f a = .ok (g a)) :
    l.mapM f = .ok (l.map g) := by
  induction l with
  | nil => rfl
  | cons a l ih =>
    rw [List.mapM_cons, h a (by simp), ih fun x hx => h x (by simp [hx])]
    rfl

/-- the positions of the entries that are off by more than the tolerance (in percent) -/
noncomputable def offAt (tol : ℝ) (target requested : List ℝ) : List ℕ :=
  open Classical in (List.range target.length).filter fun i =>
    tol / 100 * |target.getD i 0 + 1e-6| < |requested.getD i 0 - target.getD i 0|

/-- a row of the message belongs to position `i` -/
def RowOf (labels : List (List Char)) (target requested : List ℝ) (i : ℕ) (row : List Char × ℝ × ℝ) : Prop :=
  labels[i]? = some row.1 ∧ |row.2.1 - target.getD i 0| ≤ |target.getD i 0| / 200 ∧
    |row.2.2 - requested.getD i 0| ≤ |requested.getD i 0| / 200

private theorem zip_positions (f : ℝ → ℝ → Bool) (a b : List ℝ) (h : a.length = b.length) :
    ((List.zipWith f a b).zipIdx.filter fun p => p.1).map Prod.snd =
      (List.range b.length).filter fun i => f (a.getD i 0) (b.getD i 0) := by
  have e : (List.zipWith f a b).zipIdx = (List.range b.length).map fun i => (f (a.getD i 0) (b.getD i 0), i) := by
    apply List.ext_getElem
    · simp [h]
    · intro i h1 h2
      simp only [List.length_map, List.length_range] at h2
      have ha : i < a.length := by omega
      simp [ha, h2]
  rw [e, List.filter_map, List.map_map]
  simp only [Function.comp_def]
  exact List.map_id' _

/-- **C115**: `match_moments` and `match_quantiles` list exactly the entries that are off by more than the tolerance, in order,
each with its name, its target and the value of the returned distribution (up to half a percent); there is no message if
there is no such entry. -/
theorem match_text (tol : ℝ) (labels : List (List Char)) (target requested : List ℝ) (h1 : labels.length = target.length)
    (h2 : requested.length = target.length) (hl : ∀ l ∈ labels, ':' ∉ l ∧ '\n' ∉ l) :
    (offAt tol target requested = [] → matchText tol labels target requested = .ok none) ∧
    (offAt tol target requested ≠ [] → ∃ text rows, matchText tol labels target requested = .ok (some text) ∧
      readMismatch text = some rows ∧ List.Forall₂ (RowOf labels target requested) (offAt tol target requested) rows) := by
  have hpos : offAt tol target requested =
      ((List.zipWith (off tol) requested target).zipIdx.filter fun p => p.1).map Prod.snd := by
    rw [zip_positions _ _ _ h2]
    unfold offAt
    apply List.filter_congr
    intro i _
    rw [Bool.eq_iff_iff, off_iff, decide_eq_true_iff]
  have hbr : broadcast (off tol) requested target = .ok (List.zipWith (off tol) requested target) := by
    unfold broadcast; rw [if_pos h2]
  set E := List.zipWith (off tol) requested target with hE
  have hany : E.any id = true ↔ offAt tol target requested ≠ [] := by
    rw [hpos, ne_eq, List.map_eq_nil_iff, List.filter_eq_nil_iff]
    simp only [List.any_eq_true, id]
    push Not
    constructor
    · rintro ⟨x, hx, rfl⟩
      obtain ⟨i, hi, hx⟩ := List.mem_iff_getElem.mp hx
      exact ⟨(true, i), by rw [List.mem_zipIdx_iff_getElem?]; simp [← hx], rfl⟩
    · rintro ⟨p, hp, ht⟩
      exact ⟨p.1, List.fst_mem_of_mem_zipIdx hp, ht⟩
  constructor
  · intro hn
    unfold matchText
    rw [hbr, Except.ok_bind', if_neg (fun h => hany.1 h hn)]
    rfl
  · intro hn
    have hlt : ∀ p ∈ E.zipIdx.filter (fun p => p.1), p.2 < target.length := by
      intro p hp
      have := List.snd_lt_of_mem_zipIdx (List.mem_of_mem_filter hp)
      simp [hE, h2] at this
      exact this
    have hline : ∀ p ∈ E.zipIdx.filter (fun p => p.1), line labels target requested p.2 =
        .ok ('\n' :: rowText (labels.getD p.2 []) (target.getD p.2 0) (requested.getD p.2 0)) := by
      intro p hp
      have hi := hlt p hp
      have a1 : p.2 < labels.length := by omega
      have a2 : p.2 < requested.length := by omega
      unfold line
      simp only [List.getElem?_eq_getElem a1, List.getElem?_eq_getElem hi, List.getElem?_eq_getElem a2, List.getD_eq_getElem?_getD,
        Option.getD_some]
      simp [rowText]
    have hm := mapM_ok' _ _ _ hline
    set ps := E.zipIdx.filter (fun p => p.1) with hps
    have hrow : ∀ p ∈ ps, ∃ row, readRow (rowText (labels.getD p.2 []) (target.getD p.2 0) (requested.getD p.2 0)) = some row ∧
        RowOf labels target requested p.2 row := by
      intro p hp
      have a1 : p.2 < labels.length := by have := hlt p hp; omega
      have eg : labels.getD p.2 [] = labels[p.2] := by simp [a1]
      obtain ⟨y, z, hr, ny, nz⟩ := rowText_read (labels.getD p.2 []) (by rw [eg]; exact (hl _ (List.getElem_mem a1)).1)
        (target.getD p.2 0) (requested.getD p.2 0)
      exact ⟨_, hr, by rw [eg]; exact List.getElem?_eq_getElem a1, ny, nz⟩
    have hrows : ∀ qs : List (Bool × ℕ), (∀ p ∈ qs, p ∈ ps) → ∃ rows,
        (qs.map fun p => rowText (labels.getD p.2 []) (target.getD p.2 0) (requested.getD p.2 0)).mapM readRow = some rows ∧
        List.Forall₂ (RowOf labels target requested) (qs.map Prod.snd) rows := by
      intro qs
      induction qs with
      | nil => intro _; exact ⟨[], rfl, List.Forall₂.nil⟩
      | cons p qs ih =>
        intro hq
        obtain ⟨rows, hrs, hf⟩ := ih fun x hx => hq x (by simp [hx])
        obtain ⟨row, hr, hR⟩ := hrow p (hq p (by simp))
        refine ⟨row :: rows, ?_, List.Forall₂.cons hR hf⟩
        rw [List.map_cons, List.mapM_cons, hr, hrs]
        rfl
    obtain ⟨rows, hrs, hf⟩ := hrows ps fun _ h => h
    refine ⟨"There is a mismatch:".toList ++ ((ps.map fun p => rowText (labels.getD p.2 []) (target.getD p.2 0)
      (requested.getD p.2 0)).map fun l => '\n' :: l).flatten, rows, ?_, ?_, by rw [hpos]; exact hf⟩
    · unfold matchText
      rw [hbr, Except.ok_bind', if_pos (hany.2 hn), hm, Except.ok_bind', List.map_map]
      rfl
    · unfold readMismatch
      rw [lines_all _ _ _ (by decide +kernel)]
      · simp only [if_true]
        exact hrs
      · intro l hlm
        obtain ⟨p, hp, rfl⟩ := List.mem_map.mp hlm
        have a1 : p.2 < labels.length := by have := hlt p hp; omega
        refine rowText_line _ ?_ _ _
        have eg : labels.getD p.2 [] = labels[p.2] := by simp [a1]
        rw [eg]; exact (hl _ (List.getElem_mem a1)).2

/-- **C115**: the letters of `match_moments`; the tolerance is one part in ten thousand -/
theorem moments_text (moments : List Char) (target requested : List ℝ) (h1 : moments.length = target.length)
    (h2 : requested.length = target.length) (hl : ∀ c ∈ moments, c ∈ "mdvsk".toList) :
    (offAt 0.01 target requested = [] → momentsText moments target requested = .ok none) ∧
    (offAt 0.01 target requested ≠ [] → ∃ text rows, momentsText moments target requested = .ok (some text) ∧
      readMismatch text = some rows ∧
      List.Forall₂ (RowOf (moments.map fun c => [c]) target requested) (offAt 0.01 target requested) rows) := by
  refine match_text 0.01 _ target requested (by simpa using h1) h2 fun l h => ?_
  obtain ⟨c, hc, rfl⟩ := List.mem_map.mp h
  have := hl c hc
  constructor <;> simp only [List.mem_singleton] <;> rintro rfl <;> revert this <;> decide +kernel

/-- **C115**: the same for `match_quantiles`; the tolerance is one part in a thousand -/
theorem quantiles_text (labels : List (List Char)) (target requested : List ℝ) (h1 : labels.length = target.length)
    (h2 : requested.length = target.length) (hl : ∀ l ∈ labels, ∀ c ∈ l, c ∈ "0123456789.e-".toList) :
    (offAt 0.1 target requested = [] → quantilesText labels target requested = .ok none) ∧
    (offAt 0.1 target requested ≠ [] → ∃ text rows, quantilesText labels target requested = .ok (some text) ∧
      readMismatch text = some rows ∧ List.Forall₂ (RowOf labels target requested) (offAt 0.1 target requested) rows) := by
  refine match_text 0.1 labels target requested h1 h2 fun l h => ⟨fun hc => ?_, fun hc => ?_⟩ <;>
  · have := hl l h _ hc
    revert this; decide +kernel

/-! ### What fails -/

private theorem gFmt_value {p : ℕ} (hp : 0 < p) {x : ℝ} (hx : 0 < x) {m : ℕ} {e : ℤ} (h : sigP p x = (m, e)) :
    readNumber (gFmt p x) = some ((m : ℝ) * 10 ^ (e - ((p : ℤ) - 1))) := by
  obtain ⟨d, t, hd, e1⟩ := gPos_head hp m e
  have hm := (sigP_spec hp hx).1
  rw [h] at hm
  unfold gFmt
  rw [if_neg hx.ne', if_neg (not_lt.2 hx.le), h]
  simp only
  rw [e1, readNumber_digit hd, ← e1, gPos_read hp hm]

private theorem sig_tenth {p : ℕ} {x : ℝ} {n : ℕ} (h1 : 1 / 10 ≤ x) (h2 : x < 1) (ha : (n : ℝ) ≤ x * 10 ^ p)
    (hb : x * 10 ^ p < n + 1 / 2) (hn : n ≠ 10 ^ p) : sigP p x = (n, -1) := by
  have hx : 0 < x := by linarith
  have hlog : Int.log 10 x = -1 := by
    have a : (-1 : ℤ) ≤ Int.log 10 x := by
      rw [← Int.zpow_le_iff_le_log (by norm_num) hx]; norm_num; linarith
    have b : Int.log 10 x < 0 := by
      rw [← Int.lt_zpow_iff_log_lt (by norm_num) hx]; norm_num; exact h2
    omega
  have hd : x / 10 ^ ((-1 : ℤ) - ((p : ℤ) - 1)) = x * 10 ^ p := by
    rw [show (-1 : ℤ) - ((p : ℤ) - 1) = -(p : ℤ) by ring, zpow_neg, zpow_natCast, div_inv_eq_mul]
  have hr : roundEven (x * 10 ^ p) = n := by
    have hf : ⌊x * 10 ^ p⌋₊ = n := by
      rw [Nat.floor_eq_iff (by positivity)]
      exact ⟨ha, by linarith⟩
    unfold roundEven
    simp only [hf]
    rw [if_pos (by linarith)]
  unfold sigP
  simp only [hlog, hd, hr, if_neg hn]

private theorem unit_cdf (x : ℝ) (h0 : 0 ≤ x) (h1 : x ≤ 1) : (unif 0 1 one_pos).cdf x = x ∧
    (unif 0 1 one_pos).law.real (Set.Icc 0 x) = x := by
  have : {y : ℝ | (y : EReal) ≤ (x : EReal)} = Set.Iic x := by ext y; simp
  have e2 : (unif 0 1 one_pos).law.real (Set.Icc 0 x) = x := by
    rw [unif_real 0 1 one_pos _ measurableSet_Icc, Set.inter_eq_left.2 (Set.Icc_subset_Icc_right h1)]
    simp [h0]
  refine ⟨?_, e2⟩
  unfold Base.cdf
  rw [this, unif_real 0 1 one_pos _ measurableSet_Iic,
    show Set.Iic x ∩ Set.Icc 0 1 = Set.Icc 0 x by
      ext y
      simp only [Set.mem_inter_iff, Set.mem_Iic, Set.mem_Icc]
      constructor
      · rintro ⟨a, b, c⟩; exact ⟨b, a⟩
      · rintro ⟨a, b⟩; exact ⟨b, a, b.trans h1⟩]
  simp [h0]

/-- **C115**, what fails: `maxent` can warn that the requested mass is 0.94 but the computed one is 0.94 -/
theorem maxent_text_wrong : ∃ t, maxentText (unif 0 1 one_pos) 0 0.9402 0.94 = some t ∧ numbersIn t = [0.94, 0.94] := by
  have hP := (unit_cdf 0.9402 (by norm_num) (by norm_num)).2
  obtain ⟨h1, h2⟩ := maxent_silent_partial (unif 0 1 one_pos) 0 0.9402 0.94 (by norm_num) (by norm_num) (fun h => by cases h)
  rw [hP] at h1 h2
  have hw : Warnings.maxentWarns (unif 0 1 one_pos) 0 0.9402 0.94 = true := by
    rw [← Bool.not_eq_false, h1]; norm_num [abs_of_pos]
  have r1 := gFmt_value (p := 3) (by norm_num) (show (0 : ℝ) < 0.94 by norm_num)
    (sig_tenth (n := 940) (by norm_num) (by norm_num) (by norm_num) (by norm_num) (by norm_num))
  have r2 := gFmt_value (p := 3) (by norm_num) (show (0 : ℝ) < 0.9402 by norm_num)
    (sig_tenth (n := 940) (by norm_num) (by norm_num) (by norm_num) (by norm_num) (by norm_num))
  refine ⟨_, by unfold maxentText; rw [if_pos hw, h2], ?_⟩
  have e : "\nThe requested mass is ".toList ++ gFmt 3 0.94 ++ ",\nbut the computed one is ".toList ++ gFmt 3 0.9402 =
      "\nThe requested mass is".toList ++ ' ' :: ((gFmt 3 0.94 ++ [',']) ++ '\n' ::
      ("but the computed one is".toList ++ ' ' :: gFmt 3 0.9402)) := by simp
  rw [e, numbers_sep _ _ _ (Or.inl rfl), numbers_sep _ _ _ (Or.inr rfl), numbers_sep _ _ _ (Or.inl rfl),
    numbers_none (by decide +kernel), (numbers_one r1).2, numbers_none (by decide +kernel), (numbers_one r2).1]
  norm_num

/-- **C115**, what fails: `quartile` can warn that the expected masses are 0.25, 0.5, 0.75 and the computed ones are 0.25, 0.5,
0.75 -/
theorem quartile_text_wrong : ∃ t, quartileText (unif 0 1 one_pos) 0.2501 0.5 0.7503 = some t ∧
    numbersIn t = [0.25, 0.5, 0.75, 0.25, 0.5, 0.75] := by
  have c1 := (unit_cdf 0.2501 (by norm_num) (by norm_num)).1
  have c2 := (unit_cdf 0.5 (by norm_num) (by norm_num)).1
  have c3 := (unit_cdf 0.7503 (by norm_num) (by norm_num)).1
  have hw : Warnings.quartileWarning (unif 0 1 one_pos) 0.2501 0.5 0.7503 = some [0.2501, 0.5, 0.7503] := by
    unfold Warnings.quartileWarning Warnings.relativeError
    have hd : (unif 0 1 one_pos).discrete = false := rfl
    simp only [hd, Bool.false_eq_true, if_false, c1, c3]
    rw [if_pos (by norm_num [abs_of_pos])]
    change some [(unif 0 1 one_pos).cdf ((0.2501 : ℝ) : EReal), (unif 0 1 one_pos).cdf ((0.5 : ℝ) : EReal),
      (unif 0 1 one_pos).cdf ((0.7503 : ℝ) : EReal)] = _
    rw [c1, c2, c3]
  have r1 := gFmt_value (p := 2) (by norm_num) (show (0 : ℝ) < 0.2501 by norm_num)
    (sig_tenth (n := 25) (by norm_num) (by norm_num) (by norm_num) (by norm_num) (by norm_num))
  have r2 := gFmt_value (p := 2) (by norm_num) (show (0 : ℝ) < 0.5 by norm_num)
    (sig_tenth (n := 50) (by norm_num) (by norm_num) (by norm_num) (by norm_num) (by norm_num))
  have r3 := gFmt_value (p := 2) (by norm_num) (show (0 : ℝ) < 0.7503 by norm_num)
    (sig_tenth (n := 75) (by norm_num) (by norm_num) (by norm_num) (by norm_num) (by norm_num))
  refine ⟨_, by unfold quartileText; rw [hw, Option.map_some], ?_⟩
  have e : ∀ A B C : List Char, "\nThe expected masses are 0.25, 0.5, 0.75\nThe computed ones are: ".toList ++ A ++ ", ".toList ++
      B ++ ", ".toList ++ C = "\nThe expected masses are 0.25, 0.5, 0.75\nThe computed ones are:".toList ++ ' ' ::
        ((A ++ [',']) ++ ' ' :: ((B ++ [',']) ++ ' ' :: C)) := by
    intro A B C; simp
  simp only [List.getD_cons_zero, List.getD_cons_succ]
  rw [e, numbers_sep _ _ _ (Or.inl rfl), numbers_sep _ _ _ (Or.inl rfl), numbers_sep _ _ _ (Or.inl rfl),
    expected_numbers, (numbers_one r1).2, (numbers_one r2).2, (numbers_one r3).1]
  norm_num

/-- **C115**, what fails: a repeated letter and an array.  The array has one target for both letters, so the message for the
second one is an IndexError whenever there is something to report. -/
theorem moments_text_repeated (c : Char) (t r : ℝ) (h : 0.01 / 100 * |t + 1e-6| < |r - t|) :
    momentsText [c, c] [t] [r, r] = .error .indexError := by
  have ho := (off_iff 0.01 r t).2 h
  unfold momentsText matchText broadcast
  simp only [List.length_cons, List.length_nil, List.map_cons, List.map_nil, ho]
  rfl

/-- a message about one moment of two: a mean of 1 that became 1.5 -/
example : offAt 0.01 [1, 4] [1.5, 4] = [0] := by
  unfold offAt
  simp only [List.length_cons, List.length_nil, List.range_succ, List.range_zero, List.nil_append, List.cons_append,
    List.filter_cons, List.filter_nil, List.getD_cons_zero, List.getD_cons_succ]
  norm_num [abs_of_pos]

/-- there are warnings that `maxent_text_partial` applies to -/
example : ∃ t, maxentText (unif 0 1 one_pos) 0 0.9402 0.94 = some t := ⟨_, maxent_text_wrong.choose_spec.1⟩

end Verif.Props
