import Verif.Model.Param
import Verif.Model.Optim
import Verif.Model.Interval
import Verif.Spec.Truncation

import Verif.Lemmas.Interval

/-! # C88: counts and ends of integer grids lose their decimals towards zero -/

namespace Verif.Props
open Verif Verif.Param Verif.Optim Verif.Interval Verif.Modifier Verif.Spec

theorem trunc_part (x : ℝ) : IntegerPart x (if 0 ≤ x then (⌊x⌋ : ℝ) else (⌈x⌉ : ℝ)) := by
  split
  · rename_i h
    have h1 := Int.floor_le x
    have h2 := Int.lt_floor_add_one x
    have h3 : (0 : ℝ) ≤ ⌊x⌋ := by exact_mod_cast Int.floor_nonneg.mpr h
    refine ⟨⟨_, rfl⟩, ?_, fun _ => ⟨h3, h1⟩, fun hx => ?_⟩
    · rw [abs_lt]; constructor <;> linarith
    · have : x = 0 := le_antisymm hx h
      subst this; simp
  · rename_i h
    push Not at h
    have h1 := Int.le_ceil x
    have h2 := Int.ceil_lt_add_one x
    have h3 : (⌈x⌉ : ℝ) ≤ 0 := by exact_mod_cast Int.ceil_le.mpr (by simpa using h.le)
    refine ⟨⟨_, rfl⟩, ?_, fun hx => absurd hx (not_le.mpr h), fun _ => ⟨h1, h3⟩⟩
    rw [abs_lt]; constructor <;> linarith

/-- the integer part is unique -/
theorem integerPart_unique {x y z : ℝ} (hy : IntegerPart x y) (hz : IntegerPart x z) : y = z := by
  obtain ⟨⟨a, rfl⟩, ha, ha1, ha2⟩ := hy
  obtain ⟨⟨b, rfl⟩, hb, hb1, hb2⟩ := hz
  rw [abs_lt] at ha hb
  have hab : a = b := by
    rcases le_total 0 x with h | h
    · have h1 := ha1 h; have h2 := hb1 h
      have p : (a : ℝ) < b + 1 := by linarith
      have q : (b : ℝ) < a + 1 := by linarith
      have p' : a < b + 1 := by exact_mod_cast p
      have q' : b < a + 1 := by exact_mod_cast q
      omega
    · have h1 := ha2 h; have h2 := hb2 h
      have p : (a : ℝ) < b + 1 := by linarith
      have q : (b : ℝ) < a + 1 := by linarith
      have p' : a < b + 1 := by exact_mod_cast p
      have q' : b < a + 1 := by exact_mod_cast q
      omega
  rw [hab]

/-- C88: Binomial keeps the integer part of `n` and the given `p`, in the attributes and in
`params`. -/
theorem binomial_count (n p : ℝ) (o : Obj) :
    Gives (parametrize (.simple .binomial) (kwCall [("n", n), ("p", p)]) o) fun o' =>
      ∃ m, IntegerPart n m ∧ o'.params = some [some m, some p] ∧
        o'.attr "n" = some m ∧ o'.attr "p" = some p := by
  refine ⟨_, rfl, int64 n, trunc_part n, ?_⟩
  simp [simpleParam, simpleFam, kwCall, List.lookup, allNotNone, simpleUpdate, Obj.setAll, Obj.set]

/-- C88: the same for BetaBinomial. -/
theorem betabinomial_count (a b n : ℝ) (o : Obj) :
    Gives (parametrize (.simple .betaBinomial) (kwCall [("alpha", a), ("beta", b), ("n", n)]) o)
      fun o' => ∃ m, IntegerPart n m ∧ o'.params = some [some a, some b, some m] ∧
        o'.attr "n" = some m := by
  refine ⟨_, rfl, int64 n, trunc_part n, ?_⟩
  simp [simpleParam, simpleFam, kwCall, List.lookup, allNotNone, simpleUpdate, Obj.setAll, Obj.set]

/-- C88: the same for ZeroInflatedBinomial. -/
theorem zibinomial_count (psi n p : ℝ) (o : Obj) :
    Gives (parametrize (.simple .ziBinomial) (kwCall [("psi", psi), ("n", n), ("p", p)]) o)
      fun o' => ∃ m, IntegerPart n m ∧ o'.params = some [some psi, some m, some p] ∧
        o'.attr "n" = some m := by
  refine ⟨_, rfl, int64 n, trunc_part n, ?_⟩
  simp [simpleParam, simpleFam, kwCall, List.lookup, allNotNone, simpleUpdate, Obj.setAll, Obj.set]

/-- C88: HyperGeometric takes the integer part of all three parameters. -/
theorem hypergeometric_counts (N k n : ℝ) (o : Obj) :
    Gives (parametrize (.simple .hyperGeometric) (kwCall [("N", N), ("k", k), ("n", n)]) o)
      fun o' => ∃ a b c, IntegerPart N a ∧ IntegerPart k b ∧ IntegerPart n c ∧
        o'.params = some [some a, some b, some c] ∧
        o'.attr "N" = some a ∧ o'.attr "k" = some b ∧ o'.attr "n" = some c := by
  refine ⟨_, rfl, int64 N, int64 k, int64 n, trunc_part N, trunc_part k, trunc_part n, ?_⟩
  simp [simpleParam, simpleFam, kwCall, List.lookup, allNotNone, simpleUpdate, Obj.setAll, Obj.set]

/-- C88: DiscreteUniform widens its limits instead: every integer between the given limits is in the
reported range, and the reported limits are integers less than one away. -/
theorem discreteuniform_limits (lo hi : ℝ) (o : Obj) :
    Gives (parametrize (.simple .discreteUniform) (kwCall [("lower", lo), ("upper", hi)]) o)
      fun o' => ∃ a b : ℤ, o'.params = some [some (a : ℝ), some (b : ℝ)] ∧
        o'.attr "lower" = some (a : ℝ) ∧ o'.attr "upper" = some (b : ℝ) ∧
        (a : ℝ) ≤ lo ∧ lo < a + 1 ∧ hi ≤ b ∧ (b : ℝ) < hi + 1 := by
  refine ⟨_, rfl, ⌊lo⌋, ⌈hi⌉, ?_⟩
  refine ⟨?_, ?_, ?_, Int.floor_le lo, Int.lt_floor_add_one lo, Int.le_ceil hi,
    Int.ceil_lt_add_one hi⟩ <;>
  simp [simpleParam, simpleFam, kwCall, List.lookup, allNotNone, simpleUpdate, Obj.setAll, Obj.set]

theorem pyInt_part (x : ℝ) : ∃ m : ℤ, pyInt (x : EReal) = .ok m ∧ IntegerPart x m := by
  have := trunc_part x
  by_cases h : 0 ≤ x
  · exact ⟨⌊x⌋, by simp [pyInt, h], by simpa [h] using this⟩
  · exact ⟨⌈x⌉, by simp [pyInt, h], by simpa [h] using this⟩

/-- C88: the points of a discrete grid over given ends start at the integer part of the lower end;
when there is room for them they are all the integers up to the integer part of the upper end. -/
theorem xvals_integer_part (b : Base) (lo hi : ℝ) (n : ℕ) (h : hi - lo ≤ n) :
    Gives (xvalsDiscrete b (.pair (lo : EReal) (hi : EReal)) (some n)) fun xs => ∃ l u : ℤ,
      IntegerPart lo l ∧ IntegerPart hi u ∧ ∀ k : ℤ, k ∈ xs ↔ l ≤ k ∧ k ≤ u := by
  obtain ⟨l, e1, p1⟩ := pyInt_part lo
  obtain ⟨u, e2, p2⟩ := pyInt_part hi
  refine ⟨discreteXvals l u n, ?_, l, u, p1, p2, ?_⟩
  · simp only [xvalsDiscrete, finiteEndpoints, Except.ok_bind', e1, e2, Option.getD_some]
    rfl
  · have hle : u - l ≤ (n : ℤ) := by
      obtain ⟨-, a1, b1, c1⟩ := p1
      obtain ⟨-, a2, b2, c2⟩ := p2
      rw [abs_lt] at a1 a2
      have hn : (0 : ℝ) ≤ n := Nat.cast_nonneg n
      have : ((u - l : ℤ) : ℝ) < n + 1 := by
        push_cast
        rcases le_total 0 lo with h1 | h1 <;> rcases le_total 0 hi with h2 | h2
        · linarith [(b1 h1).1, (b2 h2).2]
        · linarith [(b1 h1).1, (c2 h2).2]
        · linarith [(c1 h1).1, (b2 h2).2]
        · linarith [(c1 h1).1, (c2 h2).2]
      have h3 : u - l < (n : ℤ) + 1 := by exact_mod_cast this
      omega
    intro k
    simp only [discreteXvals, if_pos hle, List.mem_map, List.mem_range]
    constructor
    · rintro ⟨i, hi, rfl⟩
      omega
    · rintro ⟨h1, h2⟩
      exact ⟨(k - l).toNat, by omega, by omega⟩

/-- the decimals go towards zero on both sides: `Binomial(n=4.9)` has 4 trials and the grid over
(-2.5, 4.9) starts at -2 -/
example : IntegerPart 4.9 4 ∧ IntegerPart (-2.5) (-2) := by
  refine ⟨⟨⟨4, by norm_num⟩, ?_, ?_, ?_⟩, ⟨⟨-2, by norm_num⟩, ?_, ?_, ?_⟩⟩ <;> norm_num [abs_lt]

end Verif.Props
