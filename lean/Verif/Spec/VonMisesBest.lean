import Verif.Spec.MoreLaws
import Verif.Spec.LocScale

/-!
# Largest entropy on the circle (C150)

Written from the definition of the von Mises distribution on `(-π, π]`, independently of the model.
-/

namespace Verif.Spec
open Set

/-- the density of the von Mises distribution with mode `mu` and concentration `k` on `(-π, π]` -/
noncomputable def circPdf (mu k : ℝ) : ℝ → ℝ := (Ioc (-Real.pi) Real.pi).indicator (vonMisesPdf mu k)

/-- a mode on the circle and a positive concentration -/
def CircGood (mu k : ℝ) : Prop := -Real.pi ≤ mu ∧ mu ≤ Real.pi ∧ 0 < k

/-- the distribution gives `[l, u]` the mass `p`, and no other distribution of the family doing so has a larger entropy -/
def CircBest (l u p mu k : ℝ) : Prop :=
  massOf (circPdf mu k) l u = p ∧
    ∀ mu' k', CircGood mu' k' → massOf (circPdf mu' k') l u = p → entropyOf (circPdf mu' k') ≤ entropyOf (circPdf mu k)

/-- opposite points of the circle -/
def Opposite (a b : ℝ) : Prop := |a - b| = Real.pi

end Verif.Spec
