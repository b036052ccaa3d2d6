import Verif.Basics
import Mathlib.Data.EReal.Basic

/-!
# Probabilistic programming interfaces: preliz/ppls/*.py, predictive/ppe.py

Shapes, bookkeeping and text only; PyMC and Bambi themselves are outside the model.
-/

namespace Verif.Ppl
open Verif

/-! ## unravel_projection (pymc_io.py:167-178) -/

/-- one entry of `var_info`: name, shape of the initial point, its size, positions of the random
parents in the list of free variables (pymc_io.py:157-162) -/
structure VarInfo where
  name : String
  shape : List ℕ
  size : ℕ
  parents : List ℕ

/-- `prior_array[:, start : start + n]` -/
def columns (rows : List (List ℝ)) (start n : ℕ) : List (List ℝ) :=
  rows.map fun r => (r.drop start).take n

/-- shape after `.reshape(iterations, *shape).squeeze()`; `reshape` raises unless the numbers of
elements agree -/
def reshaped (iterations : ℕ) (shape : List ℕ) (elements : ℕ) : Except Err (List ℕ) :=
  if elements = iterations * shape.prod then .ok ((iterations :: shape).filter (· ≠ 1))
  else .error .valueError

/-- pymc_io.py:167-178 without the element-wise back-transformation: per variable, its columns and the
shape of the resulting array -/
def unravel (rows : List (List ℝ)) (iterations : ℕ) :
    ℕ → List VarInfo → Except Err (List (String × List (List ℝ) × List ℕ))
  | _, [] => .ok []
  | start, v :: vs => do
    let vector := columns rows start v.size
    let shape ← reshaped iterations v.shape (vector.map List.length).sum
    let rest ← unravel rows iterations (start + v.size) vs
    return (v.name, vector, shape) :: rest

/-- `prior[rv_name][:, i]` (pymc_io.py:35) on an array of the given shape -/
def columnIndex (shape : List ℕ) (i : ℕ) : Except Err Unit :=
  match shape with
  | _ :: n :: _ => if i < n then .ok () else .error .indexError
  | _ => .error .indexError

/-! ## write_pymc_string (pymc_io.py:181-219), write_bambi_string (bambi_io.py:19-55) -/

/-- one declaration in the generated text: the variable and whether its parameters come from a refit to
the moments of a child (the child's name) or from its own fit -/
structure Decl where
  name : String
  refitBy : Option String
  deriving DecidableEq

/-- `variables[i] = ...` for every parent of one hierarchical variable -/
def refitParents (names : List String) (child : String) :
    List ℕ → List Decl → Except Err (List Decl)
  | [], vars => .ok vars
  | i :: is, vars =>
    match names[i]? with
    | none => .error .indexError
    | some n =>
      if i < vars.length then refitParents names child is (vars.set i ⟨n, some child⟩)
      else .error .indexError

/-- one pass of the loop -/
def writeStep (names : List String) (vars : List Decl) (v : VarInfo) : Except Err (List Decl) :=
  if v.parents = [] then .ok (vars ++ [⟨v.name, none⟩])
  else refitParents names v.name v.parents vars

/-- the list of declarations, in order; both writers share this loop -/
def writeModel (info : List VarInfo) : Except Err (List Decl) :=
  info.foldlM (writeStep (info.map VarInfo.name)) []

/-- `repr(dist)` of a fitted distribution: name, `(`, parameters, `)` (distributions.py:66-70) -/
structure ReprText where
  name : List Char
  params : List Char

/-- pymc_io.py:201-217: one declaration; the second part of `repr(..).split("(")` still carries `)` -/
def pymcLine (key : List Char) (r : ReprText) (size : ℕ) : List Char :=
  if size > 1 then
    "    ".toList ++ key ++ " = pm.".toList ++ r.name ++ "(\"".toList ++ key ++ "\", ".toList ++
      r.params ++ ", shape=".toList ++ (toString size).toList ++ ")\n".toList
  else
    "    ".toList ++ key ++ " = pm.".toList ++ r.name ++ "(\"".toList ++ key ++ "\", ".toList ++
      (r.params ++ [')']) ++ "\n".toList

/-- bambi_io.py:45-53: a variable without random parents, `)` stripped -/
def bambiLine (key : List Char) (r : ReprText) (size : ℕ) : List Char :=
  if size > 1 then
    "\"".toList ++ key ++ "\" : bmb.Prior(\"".toList ++ r.name ++ "\", ".toList ++ r.params ++
      ", shape=".toList ++ (toString size).toList ++ "),\n".toList
  else
    "\"".toList ++ key ++ "\" : bmb.Prior(\"".toList ++ r.name ++ "\", ".toList ++ r.params ++
      "),\n".toList

/-- bambi_io.py:36-43: a refitted parent, `)` not stripped -/
def bambiRefitLine (key : List Char) (r : ReprText) (size : ℕ) : List Char :=
  if size > 1 then
    "\"".toList ++ key ++ "\" : bmb.Prior(\"".toList ++ r.name ++ "\", ".toList ++
      (r.params ++ [')']) ++ ", shape=".toList ++ (toString size).toList ++ "),\n".toList
  else
    "\"".toList ++ key ++ "\" : bmb.Prior(\"".toList ++ r.name ++ "\", ".toList ++
      (r.params ++ [')']) ++ "),\n".toList

/-- bambi_io.py:25,55: `"".join([header] + variables)` -/
def bambiText (lines : List (List Char)) : List Char := "{\n".toList ++ lines.flatten

/-! ## Refitting (agnostic.py:83-105, pymc_io.py:21-67) -/

/-- candidate distributions are objects (identities); the heap says which sample each was last fitted
to.  `fits d s`: the endpoint check of `fit_to_sample` passes (optimization.py:424). -/
abbrev Heap (S : Type) := ℕ → Option S

/-- the fits done by `mle(dists, sample)` -/
def fitAll {S : Type} (fits : ℕ → S → Bool) (s : S) (h : Heap S) (cands : List ℕ) : Heap S :=
  cands.foldl (fun h d => if fits d s then Function.update h d (some s) else h) h

/-- agnostic.py:88-104: every variable with its candidates (its own distribution first) and its sample;
`pick` stands for `idx[0]`.  Returns the chosen object of each variable and the final heap. -/
def backFit {S : Type} (fits : ℕ → S → Bool) (pick : List ℕ → S → ℕ) :
    Heap S → List (String × List ℕ × S) → List (String × ℕ) × Heap S
  | h, [] => ([], h)
  | h, (v, cands, s) :: rest =>
    let h' := fitAll fits s h cands
    let r := backFit fits pick h' rest
    ((v, pick cands s) :: r.1, r.2)

/-- agnostic.py:92-101: the candidates per variable, for a list of alternatives shared by all -/
def sharedCandidates {S : Type} (vars : List (String × ℕ × S)) (families : List ℕ) :
    List (String × List ℕ × S) :=
  vars.map fun (v, own, s) => (v, own :: families, s)

/-! ## ppe (predictive/ppe.py:63-106, pymc_io.py:70-94) -/

/-- a step of the procedure that may raise -/
abbrev Step := Option Err

/-- run steps until one raises -/
def runSteps : List Step → Except Err Unit
  | [] => .ok ()
  | none :: rest => runSteps rest
  | some e :: _ => .error e

/-- ppe.py:63-106: `before` (up to and including the lookup in compile_mllk), then the observed variable
is rebound to a fresh symbol (pymc_io.py:79), `inside` (compilation and optimisation), then the original
binding is put back (ppe.py:92), `after`.  Returns the outcome and the binding in the user's model. -/
def ppe {V : Type} (fresh original : V) (before inside after : List Step) : Except Err Unit × V :=
  match runSteps before with
  | .error e => (.error e, original)
  | .ok () => match runSteps inside with
    | .error e => (.error e, fresh)
    | .ok () => (runSteps after, original)

/-! ## disable_pymc_sampling_logs (agnostic.py:294-301) -/

/-- `logger.getEffectiveLevel()`: the first non-zero level on the way to the root -/
def effectiveLevel : List ℕ → ℕ
  | [] => 0
  | l :: rest => if l ≠ 0 then l else effectiveLevel rest

/-- the levels of the logger and its ancestors after the block; `body` is what the block does to these
levels and whether it raises; the `finally` clause runs either way -/
def disableLogs (levels : List ℕ) (body : List ℕ → List ℕ × Except Err Unit) :
    List ℕ × Except Err Unit :=
  let r := body (levels.set 0 40)
  (r.1.set 0 (effectiveLevel levels), r.2)

/-! ## from_pymc (pymc_io.py:242-332, 380-448)

Scalar parameters; `none` is NaN on the way in, and "not given" on the way out. -/

/-- arguments of the PreliZ constructor -/
inductive Args
  | named (l : List (String × Option ℝ))
  | positional (l : List (Option ℝ))

/-- `1 / x` of a Python number, where present -/
noncomputable def invOpt : Option ℝ → Except Err (Option ℝ)
  | none => .ok none
  | some x => if x = 0 then .error .zeroDivision else .ok (some (1 / x))

/-- pymc_io.py:380-426.  Unpacking a list of the wrong length is a `ValueError`. -/
noncomputable def reparametrize (name : String) (p : List (Option ℝ)) : Except Err Args :=
  if name = "AsymmetricLaplace" then
    match p with
    | [b, kappa, mu] => .ok (.named [("mu", mu), ("b", b), ("kappa", kappa)])
    | _ => .error .valueError
  else if name = "Exponential" then
    match p with
    | [] => .error .indexError
    | scale :: _ => do
      let lam ← invOpt scale
      return .positional [lam]
  else if name = "Gamma" then
    match p with
    | [alpha, invBeta] => do
      let beta ← invOpt invBeta
      return .named [("alpha", alpha), ("beta", beta)]
    | _ => .error .valueError
  else if name = "Rice" then
    match p with
    | [b, sigma] => .ok (.named [("nu", do return (← b) * (← sigma)), ("sigma", sigma)])
    | _ => .error .valueError
  else if name = "SkewStudentT" then
    match p with
    | [a, b, mu, sigma] => .ok (.named [("mu", mu), ("sigma", sigma), ("a", a), ("b", b)])
    | _ => .error .valueError
  else if name = "Wald" then
    match p with
    | [mu, lam, _] => .ok (.named [("mu", mu), ("lam", lam)])
    | _ => .error .valueError
  else if name = "BetaBinomial" then
    match p with
    | [n, alpha, beta] => .ok (.named [("alpha", alpha), ("beta", beta), ("n", n)])
    | _ => .error .valueError
  else if name = "NegativeBinomial" then
    match p with
    | [n, q] => do
      let mu ← match q, n with
        | some q, some n => if q = 0 then .error .zeroDivision else .ok (some (n * (1 - q) / q))
        | _, _ => .ok none
      return .named [("mu", mu), ("alpha", n)]
    | _ => .error .valueError
  else if name = "HyperGeometric" then
    match p with
    | [good, bad, n] =>
      .ok (.named [("N", do return (← good) + (← bad)), ("k", good), ("n", n)])
    | _ => .error .valueError
  else .ok (.positional p)

/-- pymc_io.py:316-321: how many leading node inputs are not parameters -/
def skipInputs (name : String) : ℕ :=
  if name = "HalfNormal" then 3 else if name = "LogitNormal" then 1 else 2

/-- an evaluated input of a PyMC node: a number (`none` is NaN), or something that is neither a number
nor an array (the random generator, the `None` that stands for "no size") -/
inductive Input
  | num (x : Option ℝ)
  | other

/-- pymc_io.py:323-325: the filter on the types -/
def Input.number : Input → Option (Option ℝ)
  | .num x => some x
  | .other => none

/-- pymc_io.py:315-332: an ordinary node -/
noncomputable def fromNode (name : String) (inputs : List Input) : Except Err Args :=
  reparametrize name ((inputs.drop (skipInputs name)).filterMap Input.number)

/-- pymc_io.py:284-298: a zero-inflated node; `weights` are (1 - psi, psi).  These are arrays, so a probability of zero
makes `mu` infinite; it does not occur for nodes built by PyMC and is an error here. -/
noncomputable def zeroInflated (base : String) (weights p : List (Option ℝ)) : Except Err (String × Args) :=
  match weights[1]? with
  | none => .error .indexError
  | some psi =>
    if base = "NegativeBinomial" then
      match p with
      | [n, q] =>
        match n, q with
        | some n', some q' =>
          if q' = 0 then .error .zeroDivision
          else .ok ("ZeroInflated" ++ base, .positional [psi, some (n' * (1 - q') / q'), n])
        | _, _ => .ok ("ZeroInflated" ++ base, .positional [psi, none, n])
      | _ => .error .valueError
    else .ok ("ZeroInflated" ++ base, .positional (psi :: p))

/-- pymc_io.py:257-282: bounds of censored and truncated nodes, NaN meaning unbounded -/
noncomputable def bounds (lower upper : Option ℝ) : EReal × EReal :=
  (match lower with | none => ⊥ | some l => (l : EReal), match upper with | none => ⊤ | some u => (u : EReal))

end Verif.Ppl
