import Verif.Model.Cache
import Mathlib.Tactic

/-!
# C51: the cache of compiled functions is transparent
-/

set_option linter.unusedSimpArgs false

namespace Verif.Props
open Verif Verif.Cache

section
variable {Sig Plan Fn Args Out : Type} [DecidableEq Sig] (plan : Sig → Plan)
  (compile : ℕ → Plan → Except Err Fn) (run : Fn → Args → Except Err Out) (sig : Args → Sig)

/-- compilations of the same request that succeed behave the same -/
def Deterministic : Prop :=
  ∀ p n m f g, compile n p = .ok f → compile m p = .ok g → ∀ args, run f args = run g args

/-- every cached function is the outcome of an earlier compilation for its signature -/
private def Sound (cache : Sig → Option Fn) : Prop :=
  ∀ s f, cache s = some f → ∃ n, compile n (plan s) = .ok f

private theorem call_sound (n : ℕ) (cache : Sig → Option Fn) (h : Sound plan compile cache) (a : Args) :
    Sound plan compile (call plan (compile n) run sig cache a).1 := by
  have hc : Sound plan compile (compileAndCall plan (compile n) run sig cache a).1 := by
    unfold compileAndCall
    cases hf : compile n (plan (sig a)) with
    | error e => exact h
    | ok f =>
      intro s g hg
      simp only at hg
      by_cases hs : s = sig a
      · subst hs
        rw [Function.update_self] at hg
        injection hg with hg; subst hg
        exact ⟨n, hf⟩
      · rw [Function.update_of_ne hs] at hg; exact h s g hg
  unfold call
  split
  · exact hc
  · split
    · exact hc
    · exact h

private theorem calls_sound (n : ℕ) (cache : Sig → Option Fn) (h : Sound plan compile cache)
    (l : List Args) : Sound plan compile (calls plan compile run sig n cache l).1 := by
  induction l generalizing n cache with
  | nil => exact h
  | cons a l ih => exact ih _ _ (call_sound plan compile run sig n cache h a)

/-- After any sequence of calls (with arbitrary compilation failures in between), a call whose compilation
would succeed now gives what a fresh compilation gives. -/
theorem jit_transparent (hd : Deterministic compile run) (n : ℕ) (l : List Args) (m : ℕ) (a : Args) (f : Fn)
    (hf : compile m (plan (sig a)) = .ok f) :
    (call plan (compile m) run sig (calls plan compile run sig n (fun _ => none) l).1 a).2.2 = run f a := by
  have hs := calls_sound plan compile run sig n (fun _ => none) (by intro s f h; simp at h) l
  generalize (calls plan compile run sig n (fun _ => none) l).1 = cache at hs
  have hcc : (compileAndCall plan (compile m) run sig cache a).2.2 = run f a := by
    simp [compileAndCall, hf]
  unfold call
  cases hc : cache (sig a) with
  | none => exact hcc
  | some g =>
    obtain ⟨k, hk⟩ := hs _ _ hc
    simp only
    split
    · exact hcc
    · exact hd _ k m g f hk hf a

/-- A signature that was compiled once keeps working even if compiling it again would fail: the outcome is
that of the earlier compilation (a `KeyError` raised by the function itself excepted). -/
theorem jit_cached (cache : Sig → Option Fn) (a : Args) (f : Fn) (m : ℕ) (hc : cache (sig a) = some f)
    (hk : run f a ≠ .error .keyError) :
    call plan (compile m) run sig cache a = (cache, false, run f a) := by
  unfold call
  rw [hc]
  simp only

/-- A failed compilation is reported and leaves the cache unchanged. -/
theorem jit_failure (cache : Sig → Option Fn) (a : Args) (m : ℕ) (e : Err) (hc : cache (sig a) = none)
    (he : compile m (plan (sig a)) = .error e) :
    call plan (compile m) run sig cache a = (cache, false, .error e) := by
  simp [call, compileAndCall, hc, he]

/-- how often a signature was compiled during a sequence of calls -/
def timesCompiled (s : Sig) (l : List Args) (out : List (Bool × Except Err Out)) : ℕ :=
  ((l.zip out).filter fun p => sig p.1 = s ∧ p.2.1 = true).length

private theorem call_other (n : ℕ) (cache : Sig → Option Fn) (a : Args) (s : Sig) (h : sig a ≠ s) :
    (call plan (compile n) run sig cache a).1 s = cache s := by
  have hcc : (compileAndCall plan (compile n) run sig cache a).1 s = cache s := by
    unfold compileAndCall
    split
    · rfl
    · simp only; rw [Function.update_of_ne (Ne.symm h)]
  unfold call
  split
  · exact hcc
  · split
    · exact hcc
    · rfl

/-- Each signature is compiled at most once, if no compiled function raises a `KeyError` itself. -/
theorem jit_once_partial (hk : ∀ f a, run f a ≠ .error .keyError) (n : ℕ) (l : List Args) (s : Sig) :
    timesCompiled sig s l (calls plan compile run sig n (fun _ => none) l).2 ≤ 1 := by
  have key : ∀ (l : List Args) (n : ℕ) (cache : Sig → Option Fn),
      timesCompiled sig s l (calls plan compile run sig n cache l).2 ≤ (if cache s = none then 1 else 0) := by
    intro l
    induction l with
    | nil => intro n cache; simp [timesCompiled, calls]
    | cons a l ih =>
      intro n cache
      have hcons : timesCompiled sig s (a :: l) (calls plan compile run sig n cache (a :: l)).2 =
          (if sig a = s ∧ (call plan (compile n) run sig cache a).2.1 = true then 1 else 0) +
          timesCompiled sig s l
            (calls plan compile run sig (n + 1) (call plan (compile n) run sig cache a).1 l).2 := by
        simp only [timesCompiled, calls, List.zip_cons_cons, List.filter_cons]
        split_ifs with h1 h2 h2
        · simp; omega
        · simp at h1; exact absurd h1 h2
        · simp at h1; exact absurd h2.2 (by simp [h1 h2.1])
        · simp
      rw [hcons]
      have hi := ih (n + 1) (call plan (compile n) run sig cache a).1
      by_cases hs : sig a = s
      · cases hc : cache s with
        | none =>
          rw [← hs] at hc
          have hcall : call plan (compile n) run sig cache a =
              compileAndCall plan (compile n) run sig cache a := by simp [call, hc]
          rw [hcall] at hi ⊢
          unfold compileAndCall at hi ⊢
          cases hf : compile n (plan (sig a)) with
          | error e =>
            simp only [hf] at hi ⊢
            rw [← hs, hc] at hi
            rw [← hs]
            simpa using hi
          | ok f =>
            simp only [hf] at hi ⊢
            rw [hs, Function.update_self] at hi
            rw [hs]
            simp at hi ⊢
            simp [hi]
        | some f =>
          rw [← hs] at hc
          have hcall := jit_cached plan compile run sig cache a f n hc (hk f a)
          rw [hcall] at hi ⊢
          simp only [← hs, hc] at hi ⊢
          simpa using hi
      · rw [call_other plan compile run sig n cache a s hs] at hi
        simpa [hs] using hi
  simpa using key l n (fun _ => none)

end

/-- negation: a compiled function that raises a `KeyError` is compiled again at every call -/
theorem jit_keyerror_recompiles :
    timesCompiled (fun _ : Unit => ()) () [(), (), ()]
      (calls (fun _ : Unit => ()) (fun _ _ => Except.ok ()) (fun _ _ => (Except.error .keyError : Except Err Unit))
        (fun _ : Unit => ()) 0 (fun _ => none) [(), (), ()]).2 = 3 := by
  simp [timesCompiled, calls, call, compileAndCall]

/-! ## The two decorators -/

/-- a compiled function is only handed arrays fitting the types it was compiled for, and two argument
lists with the same signature ask for the same types -/
theorem jit_types_fit {D : Type} (args : List (Arr D)) :
    List.Forall₂ fits (plainPlan (plainSig args)) args := by
  unfold plainPlan plainSig
  rw [List.map_map]
  induction args with
  | nil => exact .nil
  | cons a as ih =>
    refine .cons ⟨rfl, ?_⟩ ih
    simp only [Function.comp, staticType, arraySig, List.map_map]
    generalize a.shape = sh
    induction sh with
    | nil => exact .nil
    | cons s sh ih' =>
      refine .cons ?_ ih'
      intro n hn
      by_cases h : s = 1
      · subst h; simpa using hn
      · simp [h] at hn

/-- the same for calls with random numbers -/
theorem rng_types_fit {D R : Type} (args : List (Arr D)) (size : Size) (rng : R) :
    List.Forall₂ fits (rngPlan (rngSig (args, size, rng))).1 args ∧
    (rngPlan (rngSig (args, size, rng))).2 = size.key.map List.length := ⟨jit_types_fit args, rfl⟩

/-- an integer size and the one-element sequence share one compiled function; different sizes do not -/
theorem rng_sizes {D R : Type} (args : List (Arr D)) (n m : ℤ) (rng rng' : R) :
    rngSig (args, Size.int n, rng) = rngSig (args, Size.seq [n], rng') ∧
    (n ≠ m → rngSig (args, Size.int n, rng) ≠ rngSig (args, Size.int m, rng')) ∧
    rngSig (args, Size.none, rng) ≠ rngSig (args, Size.int n, rng') := by
  simp [rngSig, Size.key]

/-- `Deterministic` is met by any compiler that always yields the same function; failures in between are
possible -/
example : Deterministic (fun n (p : ℕ) => if n = 3 then (.error .runtimeError : Except Err ℕ) else .ok p)
    (fun f (a : ℕ) => Except.ok (f + a)) := by
  intro p n m f g h1 h2 args
  simp only at h1 h2
  split_ifs at h1 h2
  injection h1 with h1; injection h2 with h2
  rw [← h1, ← h2]

end Verif.Props
