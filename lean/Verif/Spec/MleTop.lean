import Mathlib.Data.EReal.Basic

/-!
# The order in which mle returns the distributions (C87)
-/

namespace Verif.Spec

/-- one loss may stand before another: it is not larger, or the other is not a number -/
def NotWorse (a b : Option EReal) : Prop := b = none ∨ ∃ x y, a = some x ∧ b = some y ∧ x ≤ y

end Verif.Spec
