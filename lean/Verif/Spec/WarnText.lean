import Verif.Spec.Printed

/-!
# Reading a warning (C115)
-/

namespace Verif.Spec

/-- cut at blanks and ends of lines -/
def wordsOf : List Char → List Char → List (List Char)
  | cur, [] => [cur]
  | cur, c :: t => if c = ' ' ∨ c = '\n' then cur :: wordsOf [] t else wordsOf (cur ++ [c]) t

/-- the numbers in a text, in order -/
noncomputable def numbersIn (t : List Char) : List ℝ :=
  (wordsOf [] t).filterMap fun w => readNumber (w.filter (· ≠ ','))

/-- cut at the ends of lines -/
def linesOf : List Char → List Char → List (List Char)
  | cur, [] => [cur]
  | cur, c :: t => if c = '\n' then cur :: linesOf [] t else linesOf (cur ++ [c]) t

/-- ` - label: number vs number` -/
noncomputable def readRow (l : List Char) : Option (List Char × ℝ × ℝ) :=
  match l with
  | ' ' :: '-' :: ' ' :: r =>
    match r.dropWhile (· ≠ ':') with
    | _ :: rest =>
      match wordsOf [] rest with
      | [[], a, ['v', 's'], b] =>
        match readNumber a, readNumber b with
        | some y, some z => some (r.takeWhile (· ≠ ':'), y, z)
        | _, _ => none
      | _ => none
    | [] => none
  | _ => none

/-- a headline and rows -/
noncomputable def readMismatch (t : List Char) : Option (List (List Char × ℝ × ℝ)) :=
  match linesOf [] t with
  | h :: rows => if h = "There is a mismatch:".toList then rows.mapM readRow else none
  | [] => none

end Verif.Spec
