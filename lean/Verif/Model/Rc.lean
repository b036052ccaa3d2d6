import Verif.Basics
import Mathlib.Data.EReal.Basic

/-!
# Settings: preliz/internal/rcparams.py
-/

namespace Verif.Rc
open Verif

/-- Python values as far as the validators can tell them apart.  `num none` is NaN; `npBool` is a NumPy
boolean (equal to, but not identical with, `True`/`False`); `other` is an unhashable object that is not
a number (a list, say), with an identity. -/
inductive PyVal
  | none
  | bool (b : Bool)
  | num (x : Option EReal)
  | str (s : String)
  | npBool (b : Bool)
  | other (id : ℕ)

/-- Text functions of the interpreter: `str(v)`, `s.lower()`, `float(s)` (`none`: `ValueError`), and
which characters `strip()` removes. -/
structure PyEnv where
  strOf : PyVal → String
  lower : String → String
  parseFloat : String → Option (Option EReal)
  isSpace : Char → Bool
  strOf_str : ∀ s, strOf (.str s) = s
  lower_eti : lower "eti" = "eti"
  lower_hdi : lower "hdi" = "hdi"
  space_hash : isSpace '#' = false
  space_colon : isSpace ':' = false

variable (env : PyEnv)

/-- `float(v)` -/
noncomputable def toFloat : PyVal → Except Err (Option EReal)
  | .none => .error .typeError
  | .bool b => .ok (some (if b then 1 else 0))
  | .num x => .ok x
  | .str s => match env.parseFloat s with
    | none => .error .valueError
    | some x => .ok x
  | .npBool b => .ok (some (if b then 1 else 0))
  | .other _ => .error .typeError

/-- rcparams.py:51-65: both comparisons are false for NaN -/
noncomputable def validateProbability (v : PyVal) : Except Err PyVal := do
  let x ← toFloat env v
  match x with
  | none => return .num none
  | some r => if r < 0 ∨ r > 1 then .error .valueError else return .num (some r)

/-- rcparams.py:68-74 -/
noncomputable def validateBoolean : PyVal → Except Err PyVal
  | .none => .error .valueError
  | .bool b => .ok (.bool b)
  | .num x => if x = some 0 ∨ x = some 1 then .ok (.bool false) else .error .valueError
  | .str s =>
    if env.lower s = "true" then .ok (.bool true)
    else if env.lower s = "false" then .ok (.bool false)
    else .error .valueError
  | .npBool _ => .ok (.bool false)
  | .other _ => .error .typeError

/-- rcparams.py:15-48 with `accepted_values = {"eti", "hdi"}`, `allow_none=False`, `typeof=str` -/
def validateKind (v : PyVal) : Except Err PyVal :=
  let s := env.lower (env.strOf v)
  if s = "eti" ∨ s = "hdi" then .ok (.str s) else .error .valueError

/-- rcparams.py:98-102, 111: `validate[key]` -/
noncomputable def validator (k : String) : Option (PyVal → Except Err PyVal) :=
  if k = "stats.ci_kind" then some (validateKind env)
  else if k = "stats.ci_prob" then some (validateProbability env)
  else if k = "plots.show_plot" then some (validateBoolean env)
  else none

/-- `_underlying_storage` -/
abbrev Store := String → Option PyVal

/-- rcparams.py:124-126: a rejected value leaves the storage alone -/
def commit (s : Store) (k : String) : Except Err PyVal → Except Err Unit × Store
  | .error e => (.error e, s)
  | .ok c => (.ok (), Function.update s k (some c))

/-- rcparams.py:119-131: outcome and the storage afterwards -/
noncomputable def setItem (s : Store) (k : String) (v : PyVal) : Except Err Unit × Store :=
  match validator env k with
  | none => (.error .keyError, s)
  | some f => commit s k (f v)

/-- `MutableMapping.update` with pairs in iteration order: assignments until one fails -/
noncomputable def updateItems (s : Store) : List (String × PyVal) → Except Err Unit × Store
  | [] => (.ok (), s)
  | (k, v) :: rest => match setItem env s k v with
    | (.error e, s') => (.error e, s')
    | (.ok (), s') => updateItems s' rest

/-- operations of the mapping (rcparams.py:119-163) -/
inductive Op
  | set (k : String) (v : PyVal)
  | update (l : List (String × PyVal))
  | del (k : String)
  | pop (k : String)
  | popitem
  | clear
  | setdefault (k : String) (v : PyVal)

noncomputable def apply (s : Store) : Op → Except Err Unit × Store
  | .set k v => setItem env s k v
  | .update l => updateItems env s l
  | .del _ => (.error .typeError, s)
  | .pop _ => (.error .typeError, s)
  | .popitem => (.error .typeError, s)
  | .clear => (.error .typeError, s)
  | .setdefault _ _ => (.error .typeError, s)

def known : List String := ["stats.ci_kind", "stats.ci_prob", "plots.show_plot"]

/-- rcparams.py:98-102: the defaults -/
noncomputable def defaults : List (String × PyVal) :=
  [("stats.ci_kind", .str "eti"), ("stats.ci_prob", .num (some ((0.89 : ℝ) : EReal))),
    ("plots.show_plot", .bool true)]

/-- iteration order of an `RcParams` object (sorted keys, rcparams.py:186-188) -/
def sortedKeys : List String := ["plots.show_plot", "stats.ci_kind", "stats.ci_prob"]

/-- the items of an `RcParams` object -/
def items (s : Store) (keys : List String) : List (String × PyVal) :=
  keys.filterMap fun k => (s k).map fun v => (k, v)

/-! ## Configuration files -/

/-- `s.strip()` -/
def strip (l : List Char) : List Char :=
  ((l.dropWhile env.isSpace).reverse.dropWhile env.isSpace).reverse

/-- rcparams.py:265: `line.split("#", 1)[0].strip()` -/
def stripped (line : List Char) : List Char := strip env (line.takeWhile (· ≠ '#'))

/-- a local storage is lost when an exception leaves the function -/
def finish : Except Err Unit × Store → Except Err Store
  | (.error e, _) => .error e
  | (.ok (), c) => .ok c

/-- rcparams.py:264-282, one line.  `warnings.warn(text, category)` with a string as category raises
`TypeError`, for the malformed line (271) as for the duplicate key (277). -/
noncomputable def readLine (config : Store) (line : List Char) : Except Err Store :=
  let t := stripped env line
  if t = [] then .ok config
  else if ':' ∈ t then
    let key := String.ofList (strip env (t.takeWhile (· ≠ ':')))
    let val := String.ofList (strip env ((t.dropWhile (· ≠ ':')).drop 1))
    if (config key).isSome then .error .typeError
    else finish (setItem env config key (.str val))
  else .error .typeError

/-- rcparams.py:253-293 (decoding errors not represented) -/
noncomputable def readFile (lines : List (List Char)) : Except Err Store :=
  lines.foldlM (readLine env) (fun _ => none)

/-- rcparams.py:296-303; `file` is the content of the first configuration file found -/
noncomputable def rcParamsInit (file : Option (List (List Char))) : Except Err Store :=
  do
  let s ← finish (updateItems env (fun _ => none) defaults)
  match file with
  | none => return s
  | some ls => do
    let c ← readFile env ls
    finish (updateItems env s (items c sortedKeys))

/-- rcparams.py:234-250: the first candidate path that exists and is not a directory.  `arvizData`,
`xdg`: values of the environment variables. -/
def rcCandidates (cwd : String) (arvizData xdg : Option String) (home : String) (linux : Bool)
    (join : String → String → String) : List String :=
  let base := xdg.getD (join home ".config")
  [join cwd "prelizrc"] ++
  (match arvizData with
    | some d => if d = "" then [] else [join d "prelizrc"]
    | none => []) ++
  [join (if linux then join base "preliz" else join home ".preliz") "prelizrc"]

def findRcFile (isFile : String → Bool) (candidates : List String) : Option String :=
  candidates.find? isFile

/-! ## rc_context -/

/-- arguments of `rc_context` -/
structure CtxArgs where
  rc : List (String × PyVal)
  file : Option (List (List Char))

/-- rcparams.py:333-335 -/
noncomputable def ctxFile (file : Option (List (List Char))) (s : Store) : Except Err Unit × Store :=
  match file with
  | none => (.ok (), s)
  | some ls => match readFile env ls with
    | .error e => (.error e, s)
    | .ok c => updateItems env s (items c sortedKeys)

/-- rcparams.py:331-337 (`__init__`): outcome with the saved copy, and the settings afterwards -/
noncomputable def ctxInit (a : CtxArgs) (s : Store) : Except Err Store × Store :=
  match ctxFile env a.file s with
  | (.error e, s') => (.error e, s')
  | (.ok (), s') => match updateItems env s' a.rc with
    | (.error e, s'') => (.error e, s'')
    | (.ok (), s'') => (.ok s, s'')

/-- rcparams.py:343-345 (`__exit__`); the saved copy is a plain dict in insertion order `known` -/
noncomputable def ctxExit (orig : Store) (s : Store) : Except Err Unit × Store :=
  updateItems env s (items orig known)

/-- Programs using the settings: operations, exceptions raised by user code, sequencing, `with`, and
`try: ... except: ...`. -/
inductive Prog
  | op (o : Op)
  | raise (e : Err)
  | skip
  | seq (p q : Prog)
  | withCtx (a : CtxArgs) (body : Prog)
  | tryCatch (p q : Prog)

noncomputable def exec : Prog → Store → Except Err Unit × Store
  | .op o, s => apply env s o
  | .raise e, s => (.error e, s)
  | .skip, s => (.ok (), s)
  | .seq p q, s => match exec p s with
    | (.error e, s') => (.error e, s')
    | (.ok (), s') => exec q s'
  | .withCtx a body, s => match ctxInit env a s with
    | (.error e, s') => (.error e, s')
    | (.ok orig, s') => match exec body s' with
      | (r, s'') => match ctxExit env orig s'' with
        | (.error e, t) => (.error e, t)
        | (.ok (), t) => (r, t)
  | .tryCatch p q, s => match exec p s with
    | (.error _, s') => exec q s'
    | (.ok (), s') => (.ok (), s')

end Verif.Rc
