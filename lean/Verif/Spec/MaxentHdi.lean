import Verif.Spec.LocScale
import Verif.Spec.SkewLaw

/-!
# Densities that rise to a mode and fall after it (C122)
-/

namespace Verif.Spec
open MeasureTheory Verif.Param

/-- a positive continuous density that rises up to a mode, falls after it and has a finite entropy -/
structure Humped (g : ℝ → ℝ) (c : ℝ) : Prop where
  cont : Continuous g
  pos : ∀ x, 0 < g x
  rises : ∀ x y, x < y → y ≤ c → g x < g y
  falls : ∀ x y, c ≤ x → x < y → g y < g x
  int : Integrable g
  one : ∫ x, g x = 1
  ent : Integrable fun x => g x * Real.log (g x)

/-- `[l, u]` is an interval of probability `p` and there is no shorter one: a highest density interval -/
def Shortest (f : ℝ → ℝ) (p l u : ℝ) : Prop :=
  massOf f l u = p ∧ ∀ c d, c ≤ d → massOf f c d = p → u - l ≤ d - c

/-- families with a location and a scale: those of C116 and five that are not symmetric (the asymmetry of
AsymmetricLaplace, SkewNormal and SkewStudentT is given) -/
inductive ShiftFam
  | peak (F : PeakFam)
  | gumbel
  | moyal
  | asymmetricLaplace (kappa : ℝ)
  | skewNormal (alpha : ℝ)
  | skewStudentT (a b : ℝ)

/-- the documented density with location `m` and scale `s` -/
noncomputable def ShiftFam.pdf : ShiftFam → ℝ → ℝ → ℝ → ℝ
  | .peak F => F.pdf
  | .gumbel => gumbelPdf
  | .moyal => moyalPdf
  | .asymmetricLaplace k => asymLaplacePdf k
  | .skewNormal al => skewNormalPdf al
  | .skewStudentT a b => skewStudentPdf a b

def ShiftFam.Ok : ShiftFam → Prop
  | .peak F => F.Ok
  | .asymmetricLaplace k => 0 < k
  | .skewStudentT a b => 0 < a ∧ 0 < b
  | _ => True

/-- the class -/
def ShiftFam.family : ShiftFam → Family
  | .peak F => F.family
  | .gumbel => .simple .gumbel
  | .moyal => .simple .moyal
  | .asymmetricLaplace _ => .asymmetricLaplace
  | .skewNormal _ => .skewNormal
  | .skewStudentT _ _ => .skewStudentT

/-- the arguments the user gives: none, or the shape -/
noncomputable def ShiftFam.given : ShiftFam → Kw
  | .peak F => F.given
  | .asymmetricLaplace k => fun n => if n = "kappa" then some k else none
  | .skewNormal al => fun n => if n = "alpha" then some al else none
  | .skewStudentT a b => fun n => if n = "a" then some a else if n = "b" then some b else none
  | _ => fun _ => none

/-- the values of the attributes of the distribution with location `m` and scale `s` -/
noncomputable def ShiftFam.values : ShiftFam → ℝ → ℝ → List (Option ℝ)
  | .peak F, m, s => F.values m s
  | .asymmetricLaplace k, m, s => [some k, some m, some s]
  | .skewNormal al, m, s => [some m, some s, some al]
  | .skewStudentT a b, m, s => [some m, some s, some a, some b]
  | _, m, s => [some m, some s]

end Verif.Spec
