import Verif.Spec.LocScale

/-!
# Families on a bounded interval with a free position (C125)
-/

namespace Verif.Spec
open MeasureTheory Verif.Param

inductive WideFam
  | uniform
  | triangular

/-- the documented conditions; the parameters in the order of the constructor -/
def WideFam.Good : WideFam → List ℝ → Prop
  | .uniform, [a, b] => a < b
  | .triangular, [a, c, b] => a ≤ c ∧ c ≤ b ∧ a < b
  | _, _ => False

/-- the documented density -/
noncomputable def WideFam.pdf : WideFam → List ℝ → ℝ → ℝ
  | .uniform, [a, b] => uniformPdf a b
  | .triangular, [a, c, b] => triangularPdf a c b
  | _, _ => fun _ => 0

/-- the length of the support -/
def WideFam.wide : WideFam → List ℝ → ℝ
  | .uniform, [a, b] => b - a
  | .triangular, [a, _, b] => b - a
  | _, _ => 0

/-- the class -/
def WideFam.family : WideFam → Family
  | .uniform => .simple .uniform
  | .triangular => .simple .triangular

/-- the length of the longest support with mass `p` on `[l, u]` -/
noncomputable def WideFam.longest : WideFam → ℝ → ℝ → ℝ → ℝ
  | .uniform, l, u, p => (u - l) / p
  | .triangular, l, u, p => (u - l) / (1 - Real.sqrt (1 - p))

/-- uniform: the interval lies in the support and is the fraction `p` of it; triangular: the density is the same fraction
`√(1 - p)` of its maximum at both ends -/
noncomputable def WideFam.Best : WideFam → List ℝ → ℝ → ℝ → ℝ → Prop
  | .uniform, [a, b], l, u, p => a ≤ l ∧ u ≤ b ∧ u - l = p * (b - a)
  | .triangular, [a, c, b], l, u, p => l = a + Real.sqrt (1 - p) * (c - a) ∧ u = b - Real.sqrt (1 - p) * (b - c)
  | _, _, _, _, _ => False

end Verif.Spec
