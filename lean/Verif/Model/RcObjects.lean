import Verif.Model.Rc

/-!
# Settings as objects: iteration, `find_all`, `copy` and several contexts

internal/rcparams.py:114-117, 165-211 and 309-345.  Mapping objects refer to storages; `find_all`, `copy` and `rc_context`
make new ones.
-/

namespace Verif.RcObjects
open Verif Verif.Rc

/-- a mapping object: an RcParams (values are validated) or a plain dict, and the storage it refers to -/
structure Handle where
  rc : Bool
  ref : ℕ

/-- all storages, the first unused one, the mapping objects in the order of their creation (the first is
`preliz.rcParams`), and the copies kept by the contexts -/
structure World where
  store : ℕ → Store
  next : ℕ
  handles : List Handle
  saved : List ℕ

/-- rcparams.py:186-188: the keys in sorted order -/
def keys (s : Store) : List String := sortedKeys.filter fun k => (s k).isSome

/-- rcparams.py:190-192 -/
def len (s : Store) : ℕ := (keys s).length

/-- rcparams.py:177-184: one line for each item, the key padded to 22 characters -/
def strLines (show_ : PyVal → List Char) (s : Store) : List (List Char) :=
  (items s sortedKeys).map fun p => p.1.toList ++ List.replicate (22 - p.1.toList.length) ' ' ++ [':', ' '] ++ show_ p.2

/-- rcparams.py:194-207; `m`: whether `re.search` finds the pattern in a key.  The storage of the new object. -/
noncomputable def findAll (env : PyEnv) (m : String → Bool) (s : Store) : Except Err Store :=
  finish (updateItems env (fun _ => none) ((items s sortedKeys).filter fun p => m p.1))

/-- what a program does; objects and contexts are given by their number -/
inductive Act
  /-- an operation of the mapping on object `i` -/
  | on (i : ℕ) (o : Op)
  /-- `d[k] = v` for a plain dict -/
  | put (i : ℕ) (k : String) (v : PyVal)
  /-- `del d[k]` for a plain dict -/
  | remove (i : ℕ) (k : String)
  | findAll (i : ℕ) (m : String → Bool)
  | copy (i : ℕ)
  /-- `rc_context(...)` -/
  | context (a : CtxArgs)
  /-- `__enter__` of context `j` -/
  | enter (j : ℕ)
  /-- `__exit__` of context `j` -/
  | exit (j : ℕ)

/-- a new object with its own storage -/
def World.alloc (w : World) (rc : Bool) (s : Store) : World :=
  { w with store := Function.update w.store w.next s, next := w.next + 1, handles := w.handles ++ [⟨rc, w.next⟩] }

/-- the storage `r` gets the content `s` -/
def World.setAt (w : World) (r : ℕ) (s : Store) : World := { w with store := Function.update w.store r s }

/-- rcparams.py:119-211 and 331-345: outcome (the new object, if there is one) and the world afterwards.  An object that is not
there is a NameError; a dict has no `find_all` (AttributeError). -/
noncomputable def step (env : PyEnv) (w : World) : Act → Except Err (Option ℕ) × World
  | .on i o => match w.handles[i]? with
    | some ⟨true, r⟩ => match apply env (w.store r) o with
      | (.ok (), s) => (.ok none, w.setAt r s)
      | (.error e, s) => (.error e, w.setAt r s)
    | _ => (.error .nameError, w)
  | .put i k v => match w.handles[i]? with
    | some ⟨false, r⟩ => (.ok none, w.setAt r (Function.update (w.store r) k (some v)))
    | _ => (.error .nameError, w)
  | .remove i k => match w.handles[i]? with
    | some ⟨false, r⟩ => if (w.store r k).isSome then (.ok none, w.setAt r (Function.update (w.store r) k none))
      else (.error .keyError, w)
    | _ => (.error .nameError, w)
  | .findAll i m => match w.handles[i]? with
    | some ⟨true, r⟩ => match findAll env m (w.store r) with
      | .ok s => (.ok (some w.handles.length), w.alloc true s)
      | .error e => (.error e, w)
    | some ⟨false, _⟩ => (.error .attributeError, w)
    | none => (.error .nameError, w)
  | .copy i => match w.handles[i]? with
    | some h => (.ok (some w.handles.length), w.alloc false (w.store h.ref))
    | none => (.error .nameError, w)
  | .context a => match w.handles[0]? with
    | some h => match ctxInit env a (w.store h.ref) with
      | (.ok orig, s) => (.ok none, { w.setAt h.ref s with
          store := Function.update (w.setAt h.ref s).store w.next orig, next := w.next + 1, saved := w.saved ++ [w.next] })
      | (.error e, s) => (.error e, w.setAt h.ref s)
    | none => (.error .nameError, w)
  | .enter j => if j < w.saved.length then (.ok none, w) else (.error .nameError, w)
  | .exit j => match w.saved[j]?, w.handles[0]? with
    | some c, some h => match ctxExit env (w.store c) (w.store h.ref) with
      | (.ok (), s) => (.ok none, w.setAt h.ref s)
      | (.error e, s) => (.error e, w.setAt h.ref s)
    | _, _ => (.error .nameError, w)

/-- a program; exceptions are caught -/
noncomputable def run (env : PyEnv) (w : World) (l : List Act) : World := l.foldl (fun w a => (step env w a).2) w

end Verif.RcObjects
