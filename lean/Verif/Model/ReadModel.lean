import Verif.Model.Explorer

/-!
# How ppa reads a model

ppls/agnostic.py:202-211 (`from_preliz`), ppls/bambi_io.py:58-129 (`from_bambi`, `match_return_variables`, `dict_model`),
internal/predictive_helper.py:7-30 (`back_fitting_ppa`, what it needs of the model).

Texts and characters are as in `Verif.Model.Explorer`.  `dist name` is the object `Name()`, or the error of building it.
-/

namespace Verif.ReadModel
open Verif Verif.Extra Verif.Explorer

/-- agnostic.py:218-223: the matches with the whole text of each.  `.` does not match a line break and a match begins as
far left as possible, so the whole text begins at the beginning of the line or after the previous match; `line` is that
text up to here. -/
def scan (line src : List Char) : List (List Char × List Char) :=
  match h : nameAt src with
  | some (n, a, r) =>
    have := nameAt_length src n a r h
    (line ++ src.take (src.length - r.length), n) :: scan [] r
  | none =>
    match src with
    | [] => []
    | c :: cs => scan (if c = '\n' then [] else line ++ [c]) cs
termination_by src.length

variable (word space : Char → Bool)

/-- `(\s*,\s*\w+)*` -/
def more (l : List Char) : List Char :=
  match h : l.dropWhile space with
  | ',' :: r =>
    if (r.dropWhile space).takeWhile word = [] then []
    else
      l.takeWhile space ++ (',' :: (r.takeWhile space ++ ((r.dropWhile space).takeWhile word ++
        more ((r.dropWhile space).dropWhile word))))
  | _ => []
termination_by l.length
decreasing_by
  have h1 : (l.dropWhile space).length ≤ l.length := (List.dropWhile_sublist _).length_le
  have h2 : (r.dropWhile space).length ≤ r.length := (List.dropWhile_sublist _).length_le
  have h3 : ((r.dropWhile space).dropWhile word).length ≤ (r.dropWhile space).length :=
    (List.dropWhile_sublist _).length_le
  rw [h] at h1
  simp only [List.length_cons] at h1
  omega

/-- bambi_io.py:110-112: the variables after the first `return ` that is followed by a word; `none`: there is none -/
def returnVariables : List Char → Option (List (List Char))
  | [] => none
  | c :: cs =>
    if "return ".toList.isPrefixOf (c :: cs) ∧ ((c :: cs).drop 7).takeWhile word ≠ [] then
      let l := (c :: cs).drop 7
      some ((splitChar ',' (l.takeWhile word ++ more word space (l.dropWhile word))).map (strip space))
    else returnVariables cs

variable {D : Type}

/-- bambi_io.py:120-129: `matches` are the whole text and the text the distribution is looked up with -/
def dictModel (dist : List Char → Except Err D) (obs : List Char) :
    List (List Char × List Char) → (List Char → Option D) → Except Err (List Char → Option D)
  | [], m => .ok m
  | (whole, name) :: rest, m => do
    let var := strip space ((splitChar '=' whole).headD [])
    if var ≠ obs then
      let d ← dist name
      dictModel dist obs rest (Function.update m var (some d))
    else dictModel dist obs rest m

/-- agnostic.py:202-211 -/
def fromPreliz (dist : List Char → Except Err D) (source : List Char) :
    Except Err (List (List Char) × (List Char → Option D)) := do
  match returnVariables word space source with
  | none => .error .attributeError
  | some vars => do
    let m ← dictModel space dist (vars.getLast?.getD []) (scan [] (stripComments source)) fun _ => none
    return (vars, m)

/-- a match of the regular expression for Bambi priors, bambi_io.py:105: `[module.]Prior("Name", arguments)` -/
structure PriorMatch where
  lead : List Char
  name : List Char
  gap : List Char
  args : List Char
  trail : List Char

def PriorMatch.whole (p : PriorMatch) : List Char :=
  p.lead ++ ("Prior(\"".toList ++ (p.name ++ ("\",".toList ++ (p.gap ++ (p.args ++ (p.trail ++ [')']))))))

/-- bambi_io.py:89-92: the model; `dict_model` looks the distribution up with `match.group(2)`, the arguments -/
def fromBambi (dist : List Char → Except Err D) (vars : List (List Char)) (ms : List PriorMatch) :
    Except Err (List Char → Option D) :=
  dictModel space dist (vars.getLast?.getD []) (ms.map fun p => (p.whole, p.args)) fun _ => none

/-- predictive_helper.py:30: `np.concatenate` of the parameters of all distributions of the model -/
def concatenateParams {P : Type} (params : List (List P)) : Except Err (List P) :=
  if params = [] then .error .valueError else .ok params.flatten

end Verif.ReadModel
