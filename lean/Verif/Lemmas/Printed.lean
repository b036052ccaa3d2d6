import Verif.Spec.Printed
import Verif.Model.Printed

/-!
# The format `.3g` reads back within half a percent
-/

namespace Verif.Printed
open Verif Verif.Spec

/-! ## Digits -/

def ofD (l : List ℕ) : ℕ := l.foldl (fun a d => a * 10 + d) 0

theorem foldl_ofD (l : List ℕ) (a : ℕ) : l.foldl (fun a d => a * 10 + d) a = a * 10 ^ l.length + ofD l := by
  induction l generalizing a with
  | nil => simp [ofD]
  | cons d l ih =>
    simp only [List.foldl_cons, List.length_cons, ofD]
    rw [ih, ih (0 * 10 + d)]
    ring

theorem ofD_append (a b : List ℕ) : ofD (a ++ b) = ofD a * 10 ^ b.length + ofD b := by
  rw [ofD, List.foldl_append, foldl_ofD]; rfl

theorem ofD_zeros (k : ℕ) : ofD (List.replicate k 0) = 0 := by
  induction k with
  | zero => rfl
  | succ k ih => rw [List.replicate_succ, ← List.singleton_append, ofD_append, ih]; simp [ofD]

theorem digitOf_digitChar {d : ℕ} (h : d < 10) : digitOf d.digitChar = some d := by
  interval_cases d <;> decide

theorem digitChar_plain {d : ℕ} (h : d < 10) : d.digitChar ∉ ['.', 'e', '-', '+', ',', ' ', '[', ']', '=', '(', ')'] := by
  interval_cases d <;> decide

theorem foldlM_chars (l : List ℕ) (h : ∀ d ∈ l, d < 10) (a : ℕ) :
    (chars l).foldlM (fun a c => (digitOf c).map (a * 10 + ·)) a = some (l.foldl (fun a d => a * 10 + d) a) := by
  induction l generalizing a with
  | nil => rfl
  | cons d l ih =>
    simp only [chars, List.map_cons, List.foldlM_cons, digitOf_digitChar (h d (by simp)), Option.map_some, Option.bind_eq_bind,
      Option.bind_some, List.foldl_cons]
    exact ih (fun x hx => h x (by simp [hx])) _

theorem readNat_chars (l : List ℕ) (hl : l ≠ []) (h : ∀ d ∈ l, d < 10) : readNat (chars l) = some (ofD l) := by
  unfold readNat
  rw [if_neg (by simpa [chars] using hl), foldlM_chars l h]; rfl

theorem dropZeros_spec (l : List ℕ) : ∃ k, l = dropZeros l ++ List.replicate k 0 := by
  have h := List.takeWhile_append_dropWhile (p := (· = 0)) (l := l.reverse)
  refine ⟨(l.reverse.takeWhile (· = 0)).length, ?_⟩
  have h2 : l.reverse.takeWhile (fun d => decide (d = 0)) = List.replicate (l.reverse.takeWhile (· = 0)).length 0 := by
    refine List.eq_replicate_iff.mpr ⟨rfl, fun b hb => ?_⟩
    have : ∀ (l : List ℕ), ∀ b ∈ l.takeWhile (fun d => decide (d = 0)), b = 0 := by
      intro l
      induction l with
      | nil => simp
      | cons d l ih =>
        intro b hb
        by_cases hd : d = 0
        · rw [List.takeWhile_cons_of_pos (by simpa using hd)] at hb
          rcases List.mem_cons.mp hb with rfl | hb
          · exact hd
          · exact ih b hb
        · rw [List.takeWhile_cons_of_neg (by simpa using hd)] at hb
          simp at hb
    exact this _ b hb
  have h3 := congrArg List.reverse h
  rw [List.reverse_append, List.reverse_reverse, h2, List.reverse_replicate] at h3
  exact h3.symm

theorem dropZeros_sub {l : List ℕ} (h : ∀ d ∈ l, d < 10) : ∀ d ∈ dropZeros l, d < 10 := by
  obtain ⟨k, hk⟩ := dropZeros_spec l
  intro d hd
  exact h d (by rw [hk]; simp [hd])

theorem chars_plain {l : List ℕ} (h : ∀ d ∈ l, d < 10) :
    ∀ c ∈ chars l, c ∉ ['.', 'e', '-', '+', ',', ' ', '[', ']', '=', '(', ')'] := by
  intro c hc
  obtain ⟨d, hd, rfl⟩ := List.mem_map.mp hc
  exact digitChar_plain (h d hd)

/-! ## Cutting at a character -/

theorem cut_at {a b : List Char} {x : Char} (h : x ∉ a) :
    (a ++ x :: b).takeWhile (· ≠ x) = a ∧ (a ++ x :: b).dropWhile (· ≠ x) = x :: b := by
  induction a with
  | nil => simp
  | cons c a ih =>
    simp only [List.mem_cons, not_or] at h
    obtain ⟨i1, i2⟩ := ih h.2
    have hc : (c ≠ x) := fun e => h.1 e.symm
    constructor
    · rw [List.cons_append, List.takeWhile_cons_of_pos (by simpa using hc), i1]
    · rw [List.cons_append, List.dropWhile_cons_of_pos (by simpa using hc), i2]

theorem cut_none {a : List Char} {x : Char} (h : x ∉ a) : a.dropWhile (· ≠ x) = [] := by
  induction a with
  | nil => rfl
  | cons c a ih =>
    simp only [List.mem_cons, not_or] at h
    have hc : c ≠ x := fun e => h.1 e.symm
    rw [List.dropWhile_cons_of_pos (by simpa using hc), ih h.2]

theorem readMantissa_withPoint (w f : List ℕ) (hw : w ≠ []) (h1 : ∀ d ∈ w, d < 10) (h2 : ∀ d ∈ f, d < 10) :
    readMantissa (withPoint w f) = some ((ofD (w ++ f) : ℝ) / 10 ^ f.length) := by
  obtain ⟨k, hk⟩ := dropZeros_spec f
  have hD := dropZeros_sub h2
  have val : (ofD (w ++ f) : ℝ) / 10 ^ f.length = (ofD w : ℝ) + (ofD (dropZeros f) : ℝ) / 10 ^ (dropZeros f).length := by
    rw [ofD_append]
    have e1 : ofD f = ofD (dropZeros f) * 10 ^ k := by
      conv_lhs => rw [hk]
      rw [ofD_append, ofD_zeros, List.length_replicate, Nat.add_zero]
    have e2 : f.length = (dropZeros f).length + k := by
      conv_lhs => rw [hk]
      rw [List.length_append, List.length_replicate]
    rw [e1, e2]
    push_cast
    rw [pow_add]
    field_simp
  rw [val]
  unfold withPoint
  simp only
  split_ifs with h0
  · unfold readMantissa
    rw [cut_none (fun hc => chars_plain h1 _ hc (by simp)), readNat_chars w hw h1, h0]
    simp [ofD]
  · obtain ⟨i1, i2⟩ := cut_at (a := chars w) (b := chars (dropZeros f)) (x := '.') (fun hc => chars_plain h1 _ hc (by simp))
    unfold readMantissa
    rw [i1, i2]
    simp only [readNat_chars w hw h1, readNat_chars _ h0 hD]
    simp [chars]

theorem withPoint_plain {w f : List ℕ} (h1 : ∀ d ∈ w, d < 10) (h2 : ∀ d ∈ f, d < 10) :
    ∀ c ∈ withPoint w f, c ∉ ['e', '-', '+', ',', ' ', '[', ']', '=', '(', ')'] := by
  intro c hc
  have sub : ∀ c : Char, c ∉ ['.', 'e', '-', '+', ',', ' ', '[', ']', '=', '(', ')'] →
      c ∉ ['e', '-', '+', ',', ' ', '[', ']', '=', '(', ')'] := fun c h hc => h (List.mem_cons_of_mem _ hc)
  unfold withPoint at hc
  simp only at hc
  split_ifs at hc
  · exact sub c (chars_plain h1 c hc)
  · simp only [List.mem_append, List.mem_cons] at hc
    rcases hc with hc | rfl | hc
    · exact sub c (chars_plain h1 c hc)
    · decide
    · exact sub c (chars_plain (dropZeros_sub h2) c hc)

theorem withPoint_head {d : ℕ} {w f : List ℕ} : ∃ t, withPoint (d :: w) f = d.digitChar :: t := by
  unfold withPoint
  simp only
  split_ifs
  · exact ⟨_, rfl⟩
  · exact ⟨_, rfl⟩

theorem digits3_lt {m : ℕ} (h : m < 1000) : ∀ d ∈ digits3 m, d < 10 := by
  intro d hd
  simp only [digits3, List.mem_cons, List.not_mem_nil, or_false] at hd
  rcases hd with rfl | rfl | rfl <;> omega

theorem ofD_digits3 (m : ℕ) : ofD (digits3 m) = m := by
  simp only [ofD, digits3, List.foldl_cons, List.foldl_nil]
  omega

theorem ofD_digits (n : ℕ) : ofD (Nat.digits 10 n).reverse = n := by
  have : ∀ l : List ℕ, ofD l.reverse = Nat.ofDigits 10 l := by
    intro l
    induction l with
    | nil => simp [ofD]
    | cons d l ih => rw [List.reverse_cons, ofD_append, ih, Nat.ofDigits_cons]; simp [ofD]; ring
  rw [this, Nat.ofDigits_digits]

theorem twoDigits_spec (n : ℕ) : ofD (twoDigits n) = n ∧ twoDigits n ≠ [] ∧ ∀ d ∈ twoDigits n, d < 10 := by
  refine ⟨?_, ?_, ?_⟩
  · unfold twoDigits; simp only
    rw [ofD_append, ofD_zeros, ofD_digits]; simp
  · intro h
    have := congrArg List.length h
    simp only [twoDigits, List.length_append, List.length_replicate, List.length_reverse, List.length_nil] at this
    omega
  · intro d hd
    simp only [twoDigits, List.mem_append, List.mem_replicate, List.mem_reverse] at hd
    rcases hd with ⟨_, rfl⟩ | hd
    · norm_num
    · exact Nat.digits_lt_base (by norm_num) hd

/-! ## Reading `.3g` -/

theorem g3Pos_read {m : ℕ} (h : m < 1000) (e : ℤ) : readUnsigned (g3Pos m e) = some ((m : ℝ) * (10 : ℝ) ^ (e - 2)) := by
  have hd := digits3_lt h
  have hl : (digits3 m).length = 3 := rfl
  have noe : ∀ {w f : List ℕ}, (∀ d ∈ w, d < 10) → (∀ d ∈ f, d < 10) → 'e' ∉ withPoint w f :=
    fun h1 h2 hc => withPoint_plain h1 h2 _ hc (by simp)
  have ht : ∀ k, ∀ d ∈ (digits3 m).take k, d < 10 := fun k d hk => hd d (List.mem_of_mem_take hk)
  have hr : ∀ k, ∀ d ∈ (digits3 m).drop k, d < 10 := fun k d hk => hd d (List.mem_of_mem_drop hk)
  unfold g3Pos
  simp only
  split_ifs with h1 h2 h3
  · unfold readUnsigned
    rw [cut_none (noe (ht _) (hr _))]
    simp only
    rw [readMantissa_withPoint _ _ (by simp [digits3]) (ht _) (hr _), List.take_append_drop, ofD_digits3, List.length_drop, hl]
    congr 1
    have : ((3 - (e.toNat + 1) : ℕ) : ℤ) = 2 - e := by omega
    rw [← zpow_natCast, this, div_eq_mul_inv, ← zpow_neg]
    congr 2; ring
  · have hf : ∀ d ∈ List.replicate ((-e).toNat - 1) 0 ++ digits3 m, d < 10 := by
      intro d hx
      rcases List.mem_append.mp hx with hx | hx
      · rw [(List.mem_replicate.mp hx).2]; norm_num
      · exact hd d hx
    have h0 : ∀ d ∈ [0], d < 10 := by simp
    unfold readUnsigned
    rw [cut_none (noe h0 hf)]
    simp only
    rw [readMantissa_withPoint _ _ (by simp) h0 hf, ofD_append, ofD_append, ofD_zeros, ofD_digits3]
    congr 1
    have : (((List.replicate ((-e).toNat - 1) 0 ++ digits3 m).length : ℕ) : ℤ) = 2 - e := by
      simp only [List.length_append, List.length_replicate, hl]; omega
    rw [← zpow_natCast, this, div_eq_mul_inv, ← zpow_neg]
    simp [ofD]
  · obtain ⟨t1, t2, t3⟩ := twoDigits_spec e.natAbs
    obtain ⟨i1, i2⟩ := cut_at (a := withPoint ((digits3 m).take 1) ((digits3 m).drop 1)) (x := 'e')
      (b := '+' :: chars (twoDigits e.natAbs)) (noe (ht 1) (hr 1))
    unfold readUnsigned
    rw [i1, i2]
    simp only
    rw [readMantissa_withPoint _ _ (by simp [digits3]) (ht 1) (hr 1), readNat_chars _ t2 t3, t1, List.take_append_drop,
      ofD_digits3, List.length_drop, hl]
    simp only [Option.some.injEq]
    have : ((e.natAbs : ℕ) : ℤ) = e := by omega
    rw [← zpow_natCast (10 : ℝ) e.natAbs, this, zpow_sub₀ (by norm_num)]
    norm_num
    ring
  · obtain ⟨t1, t2, t3⟩ := twoDigits_spec e.natAbs
    obtain ⟨i1, i2⟩ := cut_at (a := withPoint ((digits3 m).take 1) ((digits3 m).drop 1)) (x := 'e')
      (b := '-' :: chars (twoDigits e.natAbs)) (noe (ht 1) (hr 1))
    unfold readUnsigned
    rw [i1, i2]
    simp only
    rw [readMantissa_withPoint _ _ (by simp [digits3]) (ht 1) (hr 1), readNat_chars _ t2 t3, t1, List.take_append_drop,
      ofD_digits3, List.length_drop, hl]
    simp only [Option.some.injEq]
    have : ((e.natAbs : ℕ) : ℤ) = -e := by omega
    rw [← zpow_natCast (10 : ℝ) e.natAbs, this, zpow_sub₀ (by norm_num), zpow_neg]
    norm_num
    ring

theorem roundEven_near {y : ℝ} (h : 0 ≤ y) : |(roundEven y : ℝ) - y| ≤ 1 / 2 := by
  have h1 := Nat.floor_le h
  have h2 := Nat.lt_floor_add_one y
  unfold roundEven
  simp only
  rw [abs_le]
  split_ifs <;> push_cast <;> constructor <;> linarith

theorem sig3_spec {x : ℝ} (hx : 0 < x) : 100 ≤ (sig3 x).1 ∧ (sig3 x).1 < 1000 ∧
    |((sig3 x).1 : ℝ) * (10 : ℝ) ^ ((sig3 x).2 - 2) - x| ≤ (10 : ℝ) ^ (Int.log 10 x - 2) / 2 := by
  set e := Int.log 10 x with he
  have l1 : (10 : ℝ) ^ e ≤ x := by exact_mod_cast Int.zpow_log_le_self (b := 10) (by norm_num) hx
  have l2 : x < (10 : ℝ) ^ (e + 1) := by exact_mod_cast Int.lt_zpow_succ_log_self (b := 10) (by norm_num) x
  have p : (0 : ℝ) < 10 ^ (e - 2) := by positivity
  have q1 : (10 : ℝ) ^ e = 100 * 10 ^ (e - 2) := by rw [zpow_sub₀ (by norm_num)]; norm_num; ring
  have q2 : (10 : ℝ) ^ (e + 1) = 1000 * 10 ^ (e - 2) := by rw [zpow_sub₀ (by norm_num), zpow_add₀ (by norm_num)]; norm_num; ring
  have y1 : 100 ≤ x / 10 ^ (e - 2) := by rw [le_div_iff₀ p]; linarith
  have y2 : x / 10 ^ (e - 2) < 1000 := by rw [div_lt_iff₀ p]; linarith
  have near := roundEven_near (y := x / 10 ^ (e - 2)) (by positivity)
  set m := roundEven (x / 10 ^ (e - 2)) with hm
  have near' := abs_le.mp near
  have m1 : 100 ≤ m := by
    have : (99 : ℝ) < m := by linarith
    exact_mod_cast this
  have m2 : m ≤ 1000 := by
    have : (m : ℝ) < 1001 := by linarith
    have : m < 1001 := by exact_mod_cast this
    omega
  have bound : |(m : ℝ) * 10 ^ (e - 2) - x| ≤ 10 ^ (e - 2) / 2 := by
    have : (m : ℝ) * 10 ^ (e - 2) - x = (m - x / 10 ^ (e - 2)) * 10 ^ (e - 2) := by field_simp
    rw [this, abs_mul, abs_of_pos p]
    nlinarith
  unfold sig3
  simp only [← he, ← hm]
  split_ifs with h
  · refine ⟨le_rfl, by norm_num, ?_⟩
    have : ((100 : ℕ) : ℝ) * (10 : ℝ) ^ (e + 1 - 2) = m * 10 ^ (e - 2) := by
      rw [h, show e + 1 - 2 = (e - 2) + 1 by ring, zpow_add₀ (by norm_num)]; norm_num; ring
    rw [this]; exact bound
  · exact ⟨m1, by omega, bound⟩

theorem g3Pos_head {m : ℕ} (h : m < 1000) (e : ℤ) : ∃ d t, d < 10 ∧ g3Pos m e = Nat.digitChar d :: t := by
  have hd := digits3_lt h
  unfold g3Pos
  simp only
  split_ifs with h1 h2 h3
  · obtain ⟨t, ht⟩ := withPoint_head (d := m / 100) (w := [m / 10 % 10, m % 10].take e.toNat) (f := (digits3 m).drop (e.toNat + 1))
    exact ⟨_, t, by omega, ht⟩
  · obtain ⟨t, ht⟩ := withPoint_head (d := 0) (w := []) (f := List.replicate ((-e).toNat - 1) 0 ++ digits3 m)
    exact ⟨_, t, by omega, ht⟩
  all_goals
    obtain ⟨t, ht⟩ := withPoint_head (d := m / 100) (w := []) (f := (digits3 m).drop 1)
    refine ⟨m / 100, t ++ 'e' :: (if 0 ≤ e then '+' else '-') :: chars (twoDigits e.natAbs), by omega, ?_⟩
    · have : (digits3 m).take 1 = [m / 100] := rfl
      rw [this, ht]; simp [h3]

theorem readNumber_digit {d : ℕ} (h : d < 10) (t : List Char) :
    readNumber (d.digitChar :: t) = readUnsigned (d.digitChar :: t) := by
  unfold readNumber
  split
  · rename_i heq
    have := (List.cons.inj heq).1
    exact absurd (this ▸ digitChar_plain h) (by decide)
  · rfl

/-- characters that separate parts of the text -/
def seps : List Char := [',', ' ', '[', ']', '=', '(', ')']

theorem g3Pos_plain {m : ℕ} (h : m < 1000) (e : ℤ) : ∀ c ∈ g3Pos m e, c ∉ seps := by
  have hd := digits3_lt h
  have sub : ∀ c : Char, c ∉ ['e', '-', '+', ',', ' ', '[', ']', '=', '(', ')'] → c ∉ seps :=
    fun c h hc => h (by simp only [seps] at hc; simp only [List.mem_cons] at hc ⊢; tauto)
  have ht : ∀ k, ∀ d ∈ (digits3 m).take k, d < 10 := fun k d hk => hd d (List.mem_of_mem_take hk)
  have hr : ∀ k, ∀ d ∈ (digits3 m).drop k, d < 10 := fun k d hk => hd d (List.mem_of_mem_drop hk)
  intro c hc
  unfold g3Pos at hc
  simp only at hc
  split_ifs at hc
  · exact sub c (withPoint_plain (ht _) (hr _) c hc)
  · refine sub c (withPoint_plain (by simp) (fun d hx => ?_) c hc)
    rcases List.mem_append.mp hx with hx | hx
    · rw [(List.mem_replicate.mp hx).2]; norm_num
    · exact hd d hx
  all_goals
    simp only [List.mem_append, List.mem_cons] at hc
    rcases hc with hc | rfl | rfl | hc
    · exact sub c (withPoint_plain (ht _) (hr _) c hc)
    · decide
    · decide
    · have := chars_plain (twoDigits_spec e.natAbs).2.2 c hc
      exact sub c fun hx => this (List.mem_cons_of_mem _ hx)

/-- the number a text of `.3g` denotes, and how far it is from the value -/
theorem g3_read (x : ℝ) : ∃ y, readNumber (g3 x) = some y ∧ Near y x := by
  have key : ∀ z : ℝ, 0 < z → ∃ y, readUnsigned (g3Pos (sig3 z).1 (sig3 z).2) = some y ∧ |y - z| ≤ z / 200 := by
    intro z hz
    obtain ⟨h1, h2, h3⟩ := sig3_spec hz
    refine ⟨_, g3Pos_read h2 _, h3.trans ?_⟩
    have l1 : (10 : ℝ) ^ Int.log 10 z ≤ z := by exact_mod_cast Int.zpow_log_le_self (b := 10) (by norm_num) hz
    rw [zpow_sub₀ (by norm_num)]
    norm_num
    linarith
  unfold g3
  split_ifs with h0 h1
  · refine ⟨0, ?_, by simp [Near, h0]⟩
    simp [readNumber, readUnsigned, readMantissa, readNat, digitOf]
  · obtain ⟨y, hy, hn⟩ := key (-x) (by linarith)
    refine ⟨-y, by simp [readNumber, hy], ?_⟩
    unfold Near
    rw [abs_of_neg h1]
    have : |-y - x| = |y - -x| := by rw [← abs_neg]; congr 1; ring
    rw [this]; exact hn
  · have hx : 0 < x := lt_of_le_of_ne (not_lt.mp h1) (Ne.symm h0)
    obtain ⟨y, hy, hn⟩ := key x hx
    obtain ⟨d, t, hd, e⟩ := g3Pos_head (sig3_spec hx).2.1 (sig3 x).2
    refine ⟨y, ?_, by unfold Near; rwa [abs_of_pos hx]⟩
    rw [e, readNumber_digit hd, ← e, hy]

theorem g3_plain (x : ℝ) : (∀ c ∈ g3 x, c ∉ seps) ∧ g3 x ≠ [] := by
  unfold g3
  split_ifs with h0 h1
  · constructor <;> simp [seps]
  · refine ⟨?_, by simp⟩
    intro c hc
    rcases List.mem_cons.mp hc with rfl | hc
    · decide
    · exact g3Pos_plain (sig3_spec (by linarith)).2.1 _ c hc
  · have hx : 0 < x := lt_of_le_of_ne (not_lt.mp h1) (Ne.symm h0)
    obtain ⟨d, t, _, e⟩ := g3Pos_head (sig3_spec hx).2.1 (sig3 x).2
    exact ⟨g3Pos_plain (sig3_spec hx).2.1 _, by rw [e]; simp⟩

end Verif.Printed
