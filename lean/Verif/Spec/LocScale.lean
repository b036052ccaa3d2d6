import Verif.Spec.Law
import Verif.Model.MlFit
import Mathlib.Analysis.SpecialFunctions.Log.Basic

/-!
# Symmetric densities with one peak (C116)
-/

namespace Verif.Spec
open MeasureTheory Verif.Param

/-- a density that is symmetric around zero, falls on both sides and has a finite entropy -/
structure Peak (g : ℝ → ℝ) : Prop where
  cont : Continuous g
  nonneg : ∀ x, 0 ≤ g x
  even : ∀ x, g (-x) = g x
  falls : ∀ x y, 0 ≤ x → x < y → g y < g x
  int : Integrable g
  one : ∫ x, g x = 1
  ent : Integrable fun x => g x * Real.log (g x)

/-- the probability of an interval under a density -/
noncomputable def massOf (f : ℝ → ℝ) (l u : ℝ) : ℝ := (ofPdf f).real (Set.Icc l u)

/-- the differential entropy of a density -/
noncomputable def entropyOf (f : ℝ → ℝ) : ℝ := -∫ x, f x * Real.log (f x)

/-- cauchy.py:17-18 -/
noncomputable def cauchyPdf (a b x : ℝ) : ℝ := 1 / (Real.pi * b * (1 + ((x - a) / b) ^ 2))

/-- families with a location and a scale (the degrees of freedom of StudentT are given) -/
inductive PeakFam
  | normal
  | laplace
  | logistic
  | cauchy
  | studentT (nu : ℝ)

/-- the documented density with location `m` and scale `s` -/
noncomputable def PeakFam.pdf : PeakFam → ℝ → ℝ → ℝ → ℝ
  | .normal => normalPdf
  | .laplace => laplacePdf
  | .logistic => logisticPdf
  | .cauchy => cauchyPdf
  | .studentT n => studentPdf n

def PeakFam.Ok : PeakFam → Prop
  | .studentT n => 0 < n
  | _ => True

/-- the class -/
def PeakFam.family : PeakFam → Family
  | .normal => .normal
  | .laplace => .simple .laplace
  | .logistic => .simple .logistic
  | .cauchy => .simple .cauchy
  | .studentT _ => .studentT

/-- the arguments the user gives: none, or the degrees of freedom -/
noncomputable def PeakFam.given : PeakFam → Kw
  | .studentT n => fun k => if k = "nu" then some n else none
  | _ => fun _ => none

/-- the values of the attributes of the distribution with location `m` and scale `s` -/
noncomputable def PeakFam.values : PeakFam → ℝ → ℝ → List (Option ℝ)
  | .studentT n, m, s => [some n, some m, some s]
  | _, m, s => [some m, some s]

/-- normal.py:78, laplace.py:55, logistic.py:55, cauchy.py:54, studentt.py:75, 85 -/
noncomputable def PeakFam.box : PeakFam → Box
  | .studentT _ => [((eps : ℝ), ⊤), (⊥, ⊤), ((eps : ℝ), ⊤)]
  | _ => [(⊥, ⊤), ((eps : ℝ), ⊤)]

end Verif.Spec
