import Verif.Model.Printed
import Mathlib.Tactic

/-!
# Reading a page of HTML, and a text in lines (C113)
-/

namespace Verif.Spec

/-- what a page consists of: tags and the text between them -/
inductive Piece
  | tag (s : List Char)
  | text (s : List Char)
  deriving DecidableEq

def flushText (cur : List Char) : List Piece := if cur = [] then [] else [.text cur]

/-- reading one character: are we inside a tag, what was read of the piece, the pieces before -/
def readChar : Bool × List Char × List Piece → Char → Bool × List Char × List Piece
  | (false, cur, out), c => if c = '<' then (true, [], out ++ flushText cur) else (false, cur ++ [c], out)
  | (true, cur, out), c => if c = '>' then (false, [], out ++ [.tag cur]) else (true, cur ++ [c], out)

def pieces (t : List Char) : List Piece :=
  let s := t.foldl readChar (false, [], [])
  s.2.2 ++ flushText s.2.1

/-- the texts a browser shows -/
def visible (t : List Char) : List (List Char) :=
  (pieces t).filterMap fun p => match p with | .text s => some s | .tag _ => none

def tagName (s : List Char) : List Char := s.takeWhile (· ≠ ' ')

/-- every tag that is opened is closed, in the right order; `br` stands alone -/
def nested : List (List Char) → List Piece → Bool
  | st, [] => st.isEmpty
  | st, .text _ :: l => nested st l
  | st, .tag ('/' :: s) :: l => decide (st.head? = some s) && nested st.tail l
  | st, .tag s :: l => if tagName s = ['b', 'r'] then nested st l else nested (tagName s :: st) l

def WellFormed (t : List Char) : Prop := nested [] (pieces t) = true

/-- a text a page can show as it is -/
def Clean (t : List Char) : Prop := t ≠ [] ∧ '<' ∉ t ∧ '>' ∉ t

/-- the lines of a text that are not blank -/
def linesFrom : List Char → List Char → List (List Char)
  | cur, [] => [cur]
  | cur, c :: t => if c = '\n' then cur :: linesFrom [] t else linesFrom (cur ++ [c]) t

def fullLines (t : List Char) : List (List Char) := (linesFrom [] t).filter (· ≠ [])

end Verif.Spec
