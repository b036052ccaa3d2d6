import Verif.Model.Explorer

/-!
# The text boxes of predictive_explorer for Bambi models

ppls/agnostic.py:128-175, 214-223: the branches for Bambi of `parse_function_for_pred_textboxes` and
`match_preliz_dist`.  The regular expression is

`\s*(?:\w+\.)?Prior\("(names)",\s*((?:\w+=\w+(?:,?\s*)?)*)\s*\)`

The part before `Prior` is optional and has no influence on what is read.  A name is followed by `",`, so at most one
name fits.  The arguments hold no closing bracket, so they end at the first one.  They are read by an automaton that
follows every way to split the text into `\w+=\w+` at once; `prior_arguments_iff` shows that it reads the language of
the regular expression.
-/

namespace Verif.Explorer
open Verif Verif.Extra

/-- `Prior("` -/
def priorOpen : List Char := "Prior(\"".toList

/-- `",` -/
def priorSep : List Char := "\",".toList

/-- where the automaton is: between arguments, in a keyword, after `=`, after one character of a value, after more -/
inductive Spot
  | between
  | key
  | eq
  | one
  | more
  deriving DecidableEq

variable (word space : Char → Bool)

/-- `(?:\w+=\w+(?:,?\s*)?)*`, one character.  The separator is optional, so after two characters of a value an `=` can
belong to the next keyword. -/
def Spot.step : Spot → Char → Option Spot
  | .between, c => if space c then some .between else if word c then some .key else none
  | .key, c => if c = '=' then some .eq else if word c then some .key else none
  | .eq, c => if word c then some .one else none
  | .one, c => if word c then some .more else if c = ',' ∨ space c = true then some .between else none
  | .more, c =>
    if c = '=' then some .eq else if word c then some .more
    else if c = ',' ∨ space c = true then some .between else none

/-- may the arguments end here -/
def Spot.final : Spot → Bool
  | .between => true
  | .one => true
  | .more => true
  | _ => false

/-- agnostic.py:221: the arguments of a prior up to the closing bracket, and what follows it.  White space in front is
kept here; it is stripped afterwards (line 144). -/
def priorArgs : Spot → List Char → Option (List Char × List Char)
  | _, [] => none
  | s, c :: cs =>
    if c = ')' then if s.final then some ([], cs) else none
    else
      match s.step word space c with
      | none => none
      | some s' => (priorArgs s' cs).map fun p => (c :: p.1, p.2)

/-- agnostic.py:221: a prior at the beginning of the text -/
def priorAt (src : List Char) : Option (List Char × List Char × List Char) :=
  if priorOpen.isPrefixOf src then
    distNames.findSome? fun n =>
      if (n ++ priorSep).isPrefixOf (src.drop priorOpen.length) then
        (priorArgs word space .between ((src.drop priorOpen.length).drop (n ++ priorSep).length)).map
          fun p => (n, p.1, p.2)
      else none
  else none

theorem priorArgs_length (src : List Char) :
    ∀ s p, priorArgs word space s src = some p → p.2.length < src.length := by
  induction src with
  | nil => intro s p h; simp [priorArgs] at h
  | cons c cs ih =>
    intro s p h
    unfold priorArgs at h
    split_ifs at h
    · simp only [Option.some.injEq] at h
      rw [← h]; simp
    · cases h1 : s.step word space c with
      | none => rw [h1] at h; simp at h
      | some s' =>
        rw [h1] at h
        dsimp only at h
        cases h2 : priorArgs word space s' cs with
        | none => rw [h2] at h; simp at h
        | some q =>
          rw [h2] at h
          simp only [Option.map_some, Option.some.injEq] at h
          have := ih s' q h2
          rw [← h]
          simp only [List.length_cons]
          omega

theorem priorAt_length (src n a r : List Char) (h : priorAt word space src = some (n, a, r)) :
    r.length < src.length := by
  unfold priorAt at h
  split_ifs at h
  obtain ⟨m, -, hm⟩ := List.exists_of_findSome?_eq_some h
  split_ifs at hm
  cases h1 : priorArgs word space .between ((src.drop priorOpen.length).drop (m ++ priorSep).length) with
  | none => rw [h1] at hm; simp at hm
  | some p =>
    rw [h1] at hm
    simp only [Option.map_some, Option.some.injEq, Prod.mk.injEq] at hm
    have := priorArgs_length word space _ _ p h1
    rw [hm.2.2, List.length_drop, List.length_drop] at this
    omega

/-- agnostic.py:222-223: all matches, name and arguments -/
def findPriors (src : List Char) : List (List Char × List Char) :=
  match h : priorAt word space src with
  | some (n, a, r) =>
    have := priorAt_length word space src n a r h
    (n, a) :: findPriors r
  | none =>
    match src with
    | [] => []
    | _ :: cs => findPriors cs
termination_by src.length

/-- agnostic.py:128-155 for a Bambi model.  Positions are counted as for a PreliZ model (lines 160-163). -/
def parseBambi (slots : List Char → Except Err (List Slot)) (vars : List (List Char)) (source : List Char) :
    Except Err (List Char → Option Known) :=
  parseCalls word space slots vars .preliz (findPriors word space (stripComments source)) fun _ => none

end Verif.Explorer
