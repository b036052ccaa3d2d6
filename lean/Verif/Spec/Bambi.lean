import Mathlib.Data.List.Basic

/-!
# Priors in the source of a Bambi model
-/

namespace Verif.Spec

/-- `(?:\w+=\w+(?:,?\s*)?)*`: the texts of this regular expression -/
inductive Items (word space : Char → Bool) : List Char → Prop
  | nil : Items word space []
  | item {key value comma blank rest : List Char} : key ≠ [] → (∀ c ∈ key, word c = true) → value ≠ [] →
      (∀ c ∈ value, word c = true) → (comma = [] ∨ comma = [',']) → (∀ c ∈ blank, space c = true) →
      Items word space rest → Items word space (key ++ '=' :: (value ++ (comma ++ (blank ++ rest))))

/-- one argument of a prior: white space, keyword, value -/
structure PriorArg where
  pad : List Char
  key : List Char
  value : List Char

/-- a prior: the text before it, the name of its distribution, the arguments and white space after them -/
structure PriorCall where
  gap : List Char
  name : List Char
  args : List PriorArg
  trail : List Char

/-- ` key=value` -/
def PriorArg.text (a : PriorArg) : List Char := a.pad ++ (a.key ++ '=' :: a.value)

/-- the arguments, separated by commas -/
def argsText : List PriorArg → List Char
  | [] => []
  | [a] => a.text
  | a :: b :: l => a.text ++ ',' :: argsText (b :: l)

/-- the source: `… Prior("Normal", mu=a, sigma=b) …` and so on, followed by a tail -/
def priorText : List PriorCall → List Char → List Char
  | [], tail => tail
  | p :: ps, tail =>
    p.gap ++ ("Prior(\"".toList ++ (p.name ++ ("\",".toList ++ (argsText p.args ++ (p.trail ++ ')' :: priorText ps tail)))))

end Verif.Spec
