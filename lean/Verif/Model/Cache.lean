import Verif.Basics
import Mathlib.Data.Nat.Notation

/-!
# The cache of compiled functions (preliz/internal/distribution_helper.py:108-201)

Compilation and the compiled functions are external: `compile n plan` is what the `n`-th compilation
request yields (a request may fail for transient reasons), `run f args` what the compiled function does.
-/

namespace Verif.Cache

/-- the part of a NumPy array the signature looks at, and its contents -/
structure Arr (D : Type) where
  shape : List ℕ
  dtype : String
  data : D

/-- distribution_helper.py:121: which dimensions are one, and the element type -/
def arraySig {D : Type} (a : Arr D) : List Bool × String := (a.shape.map fun s => s == 1, a.dtype)

/-- distribution_helper.py:127-130: the static shapes of the symbolic inputs -/
def staticType (s : List Bool × String) : List (Option ℕ) × String :=
  (s.1.map fun b => if b then some 1 else none, s.2)

/-- does an array fit a static type? -/
def fits {D : Type} (t : List (Option ℕ) × String) (a : Arr D) : Prop :=
  a.dtype = t.2 ∧ List.Forall₂ (fun d s => ∀ n, d = some n → s = n) t.1 a.shape

section
variable {Sig Plan Fn Args Out : Type} [DecidableEq Sig] (plan : Sig → Plan)
  (compile : Plan → Except Err Fn) (run : Fn → Args → Except Err Out) (sig : Args → Sig)

/-- distribution_helper.py:127-135: compile, store, call.  The flag says that a compilation was made and
stored. -/
def compileAndCall (cache : Sig → Option Fn) (args : Args) : (Sig → Option Fn) × Bool × Except Err Out :=
  match compile (plan (sig args)) with
  | .error e => (cache, false, .error e)
  | .ok f => (Function.update cache (sig args) (some f), true, run f args)

/-- distribution_helper.py:119-135 and 153-196: one call.  `plan` is what the compilation depends on.
A `KeyError` - from the lookup or from the cached function itself - leads to a compilation. -/
def call (cache : Sig → Option Fn) (args : Args) : (Sig → Option Fn) × Bool × Except Err Out :=
  match cache (sig args) with
  | none => compileAndCall plan compile run sig cache args
  | some f =>
    match run f args with
    | .error .keyError => compileAndCall plan compile run sig cache args
    | r => (cache, false, r)

end

/-- a sequence of calls; `compile n` is the compiler at the time of the `n`-th call -/
def calls {Sig Plan Fn Args Out : Type} [DecidableEq Sig] (plan : Sig → Plan)
    (compile : ℕ → Plan → Except Err Fn) (run : Fn → Args → Except Err Out) (sig : Args → Sig) :
    ℕ → (Sig → Option Fn) → List Args → (Sig → Option Fn) × List (Bool × Except Err Out)
  | _, cache, [] => (cache, [])
  | n, cache, a :: rest =>
    let one := call plan (compile n) run sig cache a
    let more := calls plan compile run sig (n + 1) one.1 rest
    (more.1, one.2 :: more.2)

/-- distribution_helper.py:120-121: the signature of a call without random numbers -/
def plainSig {D : Type} (args : List (Arr D)) : List (List Bool × String) := args.map arraySig

/-- distribution_helper.py:127-130 -/
def plainPlan (s : List (List Bool × String)) : List (List (Option ℕ) × String) := s.map staticType

/-- the requested size: absent, a number, or a sequence (distribution_helper.py:157, 163-165) -/
inductive Size
  | none | int (n : ℤ) | seq (l : List ℤ)

/-- distribution_helper.py:157-169 -/
def Size.key : Size → Option (List ℤ)
  | .none => Option.none
  | .int n => some [n]
  | .seq l => some l

/-- distribution_helper.py:154-169: the signature of a call with random numbers -/
def rngSig {D R : Type} (args : List (Arr D) × Size × R) : List (List Bool × String) × Option (List ℤ) :=
  (args.1.map arraySig, args.2.1.key)

/-- distribution_helper.py:175-182: the compilation depends on the size only through its length -/
def rngPlan (s : List (List Bool × String) × Option (List ℤ)) :
    List (List (Option ℕ) × String) × Option ℕ := (s.1.map staticType, s.2.map List.length)

end Verif.Cache
