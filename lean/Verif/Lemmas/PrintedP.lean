import Verif.Lemmas.Printed
import Verif.Model.WarnText

/-!
# The format `.<p>g` reads back
-/

namespace Verif.WarnText
open Verif Verif.Spec Verif.Printed

theorem digitsP_length (p m : ℕ) : (digitsP p m).length = p := by
  induction p generalizing m with
  | zero => rfl
  | succ p ih => simp [digitsP, ih]

theorem digitsP_lt (p m : ℕ) : ∀ d ∈ digitsP p m, d < 10 := by
  induction p generalizing m with
  | zero => simp [digitsP]
  | succ p ih =>
    intro d hd
    simp only [digitsP, List.mem_append, List.mem_singleton] at hd
    rcases hd with hd | rfl
    · exact ih _ d hd
    · omega

theorem ofD_digitsP (p m : ℕ) (h : m < 10 ^ p) : ofD (digitsP p m) = m := by
  induction p generalizing m with
  | zero => simp only [pow_zero, Nat.lt_one_iff] at h; subst h; rfl
  | succ p ih =>
    rw [digitsP, ofD_append, ih]
    · simp only [List.length_singleton, pow_one, ofD, List.foldl_cons, List.foldl_nil]
      omega
    · rw [pow_succ] at h; omega

theorem digitsP_cons (p m : ℕ) : ∃ d t, d < 10 ∧ digitsP (p + 1) m = d :: t := by
  have hl := digitsP_length (p + 1) m
  obtain ⟨d, t, e⟩ := List.exists_cons_of_length_eq_add_one hl
  exact ⟨d, t, digitsP_lt (p + 1) m d (by rw [e]; simp), e⟩

theorem gPos_read {p m : ℕ} (hp : 0 < p) (h : m < 10 ^ p) (e : ℤ) :
    readUnsigned (gPos p m e) = some ((m : ℝ) * (10 : ℝ) ^ (e - ((p : ℤ) - 1))) := by
  have hd := digitsP_lt p m
  have hl := digitsP_length p m
  have hv := ofD_digitsP p m h
  have noe : ∀ {w f : List ℕ}, (∀ d ∈ w, d < 10) → (∀ d ∈ f, d < 10) → 'e' ∉ withPoint w f :=
    fun h1 h2 hc => withPoint_plain h1 h2 _ hc (by simp)
  have ht : ∀ k, ∀ d ∈ (digitsP p m).take k, d < 10 := fun k d hk => hd d (List.mem_of_mem_take hk)
  have hr : ∀ k, ∀ d ∈ (digitsP p m).drop k, d < 10 := fun k d hk => hd d (List.mem_of_mem_drop hk)
  have hn : ∀ k, (digitsP p m).take (k + 1) ≠ [] := by
    intro k hk
    have := congrArg List.length hk
    rw [List.length_take, hl, List.length_nil] at this
    omega
  unfold gPos
  simp only
  split_ifs with h1 h2 h3
  · unfold readUnsigned
    rw [cut_none (noe (ht _) (hr _))]
    simp only
    rw [readMantissa_withPoint _ _ (hn _) (ht _) (hr _), List.take_append_drop, hv, List.length_drop, hl]
    congr 1
    have : ((p - (e.toNat + 1) : ℕ) : ℤ) = (p : ℤ) - 1 - e := by omega
    rw [← zpow_natCast, this, div_eq_mul_inv, ← zpow_neg]
    congr 2; ring
  · have hf : ∀ d ∈ List.replicate ((-e).toNat - 1) 0 ++ digitsP p m, d < 10 := by
      intro d hx
      rcases List.mem_append.mp hx with hx | hx
      · rw [(List.mem_replicate.mp hx).2]; norm_num
      · exact hd d hx
    have h0 : ∀ d ∈ [0], d < 10 := by simp
    unfold readUnsigned
    rw [cut_none (noe h0 hf)]
    simp only
    rw [readMantissa_withPoint _ _ (by simp) h0 hf, ofD_append, ofD_append, ofD_zeros, hv]
    congr 1
    have : (((List.replicate ((-e).toNat - 1) 0 ++ digitsP p m).length : ℕ) : ℤ) = (p : ℤ) - 1 - e := by
      simp only [List.length_append, List.length_replicate, hl]; omega
    rw [← zpow_natCast, this, div_eq_mul_inv, ← zpow_neg]
    simp [ofD]
  · obtain ⟨t1, t2, t3⟩ := twoDigits_spec e.natAbs
    obtain ⟨i1, i2⟩ := cut_at (a := withPoint ((digitsP p m).take 1) ((digitsP p m).drop 1)) (x := 'e')
      (b := '+' :: chars (twoDigits e.natAbs)) (noe (ht 1) (hr 1))
    unfold readUnsigned
    rw [i1, i2]
    simp only
    rw [readMantissa_withPoint _ _ (hn 0) (ht 1) (hr 1), readNat_chars _ t2 t3, t1, List.take_append_drop,
      hv, List.length_drop, hl]
    simp only [Option.some.injEq]
    have h4 : ((e.natAbs : ℕ) : ℤ) = e := by omega
    have h5 : ((p - 1 : ℕ) : ℤ) = (p : ℤ) - 1 := by omega
    rw [← zpow_natCast (10 : ℝ) e.natAbs, h4, ← zpow_natCast (10 : ℝ) (p - 1), h5, zpow_sub₀ (by norm_num : (10 : ℝ) ≠ 0) e]
    ring
  · obtain ⟨t1, t2, t3⟩ := twoDigits_spec e.natAbs
    obtain ⟨i1, i2⟩ := cut_at (a := withPoint ((digitsP p m).take 1) ((digitsP p m).drop 1)) (x := 'e')
      (b := '-' :: chars (twoDigits e.natAbs)) (noe (ht 1) (hr 1))
    unfold readUnsigned
    rw [i1, i2]
    simp only
    rw [readMantissa_withPoint _ _ (hn 0) (ht 1) (hr 1), readNat_chars _ t2 t3, t1, List.take_append_drop,
      hv, List.length_drop, hl]
    simp only [Option.some.injEq]
    have h4 : ((e.natAbs : ℕ) : ℤ) = -e := by omega
    have h5 : ((p - 1 : ℕ) : ℤ) = (p : ℤ) - 1 := by omega
    rw [← zpow_natCast (10 : ℝ) e.natAbs, h4, ← zpow_natCast (10 : ℝ) (p - 1), h5, zpow_sub₀ (by norm_num : (10 : ℝ) ≠ 0) e, zpow_neg]
    rw [div_inv_eq_mul]
    ring

theorem sigP_spec {p : ℕ} (hp : 0 < p) {x : ℝ} (hx : 0 < x) : (sigP p x).1 < 10 ^ p ∧
    |((sigP p x).1 : ℝ) * (10 : ℝ) ^ ((sigP p x).2 - ((p : ℤ) - 1)) - x| ≤ (10 : ℝ) ^ (Int.log 10 x - ((p : ℤ) - 1)) / 2 := by
  set e := Int.log 10 x with he
  have l2 : x < (10 : ℝ) ^ (e + 1) := by exact_mod_cast Int.lt_zpow_succ_log_self (b := 10) (by norm_num) x
  set u : ℝ := 10 ^ (e - ((p : ℤ) - 1)) with hu
  have hpos : 0 < u := by positivity
  have q2 : (10 : ℝ) ^ (e + 1) = 10 ^ p * u := by
    rw [hu, ← zpow_natCast (10 : ℝ) p, ← zpow_add₀ (by norm_num)]
    congr 1; ring
  have y2 : x / u < 10 ^ p := by rw [div_lt_iff₀ hpos]; linarith
  have near := roundEven_near (y := x / u) (by positivity)
  set m := roundEven (x / u) with hm
  have near' := abs_le.mp near
  have m2 : m ≤ 10 ^ p := by
    have : (m : ℝ) < ((10 ^ p + 1 : ℕ) : ℝ) := by push_cast; linarith
    have : m < 10 ^ p + 1 := by exact_mod_cast this
    omega
  have bound : |(m : ℝ) * u - x| ≤ u / 2 := by
    have : (m : ℝ) * u - x = (m - x / u) * u := by field_simp
    rw [this, abs_mul, abs_of_pos hpos]
    nlinarith
  unfold sigP
  simp only [← he, ← hu, ← hm]
  split_ifs with h
  · refine ⟨Nat.pow_lt_pow_right (by norm_num) (by omega), ?_⟩
    have : ((10 ^ (p - 1) : ℕ) : ℝ) * (10 : ℝ) ^ (e + 1 - ((p : ℤ) - 1)) = m * u := by
      have h5 : ((p - 1 : ℕ) : ℤ) = (p : ℤ) - 1 := by omega
      rw [h, hu]
      push_cast
      rw [← zpow_natCast (10 : ℝ) p, ← zpow_natCast (10 : ℝ) (p - 1), ← zpow_add₀ (by norm_num), ← zpow_add₀ (by norm_num), h5]
      congr 1; ring
    rw [this]; exact bound
  · exact ⟨by omega, bound⟩

theorem gPos_head {p : ℕ} (hp : 0 < p) (m : ℕ) (e : ℤ) : ∃ d t, d < 10 ∧ gPos p m e = Nat.digitChar d :: t := by
  obtain ⟨k, rfl⟩ : ∃ k, p = k + 1 := ⟨p - 1, by omega⟩
  obtain ⟨d, t, hd, e0⟩ := digitsP_cons k m
  unfold gPos
  simp only [e0]
  split_ifs with h1 h2 h3
  · obtain ⟨t', ht⟩ := withPoint_head (d := d) (w := t.take e.toNat) (f := (d :: t).drop (e.toNat + 1))
    exact ⟨_, t', hd, ht⟩
  · obtain ⟨t', ht⟩ := withPoint_head (d := 0) (w := []) (f := List.replicate ((-e).toNat - 1) 0 ++ (d :: t))
    exact ⟨_, t', by omega, ht⟩
  all_goals
    obtain ⟨t', ht⟩ := withPoint_head (d := d) (w := []) (f := (d :: t).drop 1)
    refine ⟨d, t' ++ 'e' :: (if 0 ≤ e then '+' else '-') :: chars (twoDigits e.natAbs), hd, ?_⟩
    · have : (d :: t).take 1 = [d] := rfl
      rw [this, ht]; simp [h3]

/-- the characters of numbers -/
def numChars : List Char := "0123456789.e+-".toList

theorem digitChar_num {d : ℕ} (h : d < 10) : d.digitChar ∈ numChars := by
  interval_cases d <;> decide +kernel

theorem chars_num {l : List ℕ} (h : ∀ d ∈ l, d < 10) : ∀ c ∈ chars l, c ∈ numChars := by
  intro c hc
  obtain ⟨d, hd, rfl⟩ := List.mem_map.mp hc
  exact digitChar_num (h d hd)

theorem withPoint_num {w f : List ℕ} (h1 : ∀ d ∈ w, d < 10) (h2 : ∀ d ∈ f, d < 10) : ∀ c ∈ withPoint w f, c ∈ numChars := by
  intro c hc
  unfold withPoint at hc
  simp only at hc
  split_ifs at hc
  · exact chars_num h1 c hc
  · simp only [List.mem_append, List.mem_cons] at hc
    rcases hc with hc | rfl | hc
    · exact chars_num h1 c hc
    · decide +kernel
    · exact chars_num (dropZeros_sub h2) c hc

theorem gPos_num (p m : ℕ) (e : ℤ) : ∀ c ∈ gPos p m e, c ∈ numChars := by
  have hd := digitsP_lt p m
  have ht : ∀ k, ∀ d ∈ (digitsP p m).take k, d < 10 := fun k d hk => hd d (List.mem_of_mem_take hk)
  have hr : ∀ k, ∀ d ∈ (digitsP p m).drop k, d < 10 := fun k d hk => hd d (List.mem_of_mem_drop hk)
  intro c hc
  unfold gPos at hc
  simp only at hc
  split_ifs at hc
  · exact withPoint_num (ht _) (hr _) c hc
  · refine withPoint_num (by simp) (fun d hx => ?_) c hc
    rcases List.mem_append.mp hx with hx | hx
    · rw [(List.mem_replicate.mp hx).2]; norm_num
    · exact hd d hx
  all_goals
    simp only [List.mem_append, List.mem_cons] at hc
    rcases hc with hc | rfl | rfl | hc
    · exact withPoint_num (ht _) (hr _) c hc
    · decide +kernel
    · decide +kernel
    · exact chars_num (twoDigits_spec e.natAbs).2.2 c hc

/-- the number a text of `.<p>g` denotes, and how far it is from the value -/
theorem gFmt_read {p : ℕ} (hp : 0 < p) (x : ℝ) : ∃ y, readNumber (gFmt p x) = some y ∧ |y - x| ≤ |x| / (2 * 10 ^ (p - 1)) := by
  have key : ∀ z : ℝ, 0 < z → ∃ y, readUnsigned (gPos p (sigP p z).1 (sigP p z).2) = some y ∧ |y - z| ≤ z / (2 * 10 ^ (p - 1)) := by
    intro z hz
    obtain ⟨h2, h3⟩ := sigP_spec hp hz
    refine ⟨_, gPos_read hp h2 _, h3.trans ?_⟩
    have l1 : (10 : ℝ) ^ Int.log 10 z ≤ z := by exact_mod_cast Int.zpow_log_le_self (b := 10) (by norm_num) hz
    have h5 : ((p - 1 : ℕ) : ℤ) = (p : ℤ) - 1 := by omega
    rw [zpow_sub₀ (by norm_num), ← h5, zpow_natCast, div_div, mul_comm ((10 : ℝ) ^ (p - 1)) 2]
    gcongr
  unfold gFmt
  split_ifs with h0 h1
  · refine ⟨0, ?_, by simp [h0]⟩
    simp [readNumber, readUnsigned, readMantissa, readNat, digitOf]
  · obtain ⟨y, hy, hn⟩ := key (-x) (by linarith)
    refine ⟨-y, by simp [readNumber, hy], ?_⟩
    rw [abs_of_neg h1]
    have : |-y - x| = |y - -x| := by rw [← abs_neg]; congr 1; ring
    rw [this]; exact hn
  · have hx : 0 < x := lt_of_le_of_ne (not_lt.mp h1) (Ne.symm h0)
    obtain ⟨y, hy, hn⟩ := key x hx
    obtain ⟨d, t, hd, e⟩ := gPos_head hp (sigP p x).1 (sigP p x).2
    refine ⟨y, ?_, by rwa [abs_of_pos hx]⟩
    rw [e, readNumber_digit hd, ← e, hy]

theorem gFmt_num (p : ℕ) (x : ℝ) : ∀ c ∈ gFmt p x, c ∈ numChars := by
  unfold gFmt
  split_ifs with h0 h1
  · decide +kernel
  · intro c hc
    rcases List.mem_cons.mp hc with rfl | hc
    · decide +kernel
    · exact gPos_num _ _ _ c hc
  · exact gPos_num _ _ _

/-- three digits: the format of `Printed` -/
theorem gFmt_three (x : ℝ) : gFmt 3 x = g3 x := by
  have s : ∀ y, sigP 3 y = sig3 y := by
    intro y
    unfold sigP sig3
    have : Int.log 10 y - (((3 : ℕ) : ℤ) - 1) = Int.log 10 y - 2 := by norm_num
    simp only [this]
    norm_num
  have g : ∀ y, 0 < y → gPos 3 (sig3 y).1 (sig3 y).2 = g3Pos (sig3 y).1 (sig3 y).2 := by
    intro y hy
    have h := (sig3_spec hy).2.1
    have : digitsP 3 (sig3 y).1 = digits3 (sig3 y).1 := by
      simp only [digitsP, digits3, List.nil_append, List.cons_append, List.cons.injEq, and_true]
      omega
    unfold gPos g3Pos
    rw [this]
    rfl
  unfold gFmt g3
  split_ifs with h0 h1
  · rfl
  · rw [s, g _ (by linarith)]
  · rw [s, g _ (lt_of_le_of_ne (not_lt.mp h1) (Ne.symm h0))]

end Verif.WarnText
