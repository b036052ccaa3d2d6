import Mathlib.Data.EReal.Basic

/-!
# What an elicitation should leave in the parameters

Independent of the code: a list with holes, and the values that go into the holes.
-/

namespace Verif.Spec

/-- the values given stay, the holes take the values `x` in order; `none` if there are too few of them -/
def fill {V : Type} : List (Option V) → List V → Option (List V)
  | [], _ => some []
  | some v :: rest, x => (fill rest x).map (v :: ·)
  | none :: _, [] => none
  | none :: rest, v :: x => (fill rest x).map (v :: ·)

end Verif.Spec
