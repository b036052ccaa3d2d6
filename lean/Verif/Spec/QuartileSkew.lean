import Verif.Spec.QuartileShape

/-!
# Laws that lean to the right of their median (C121)
-/

namespace Verif.Spec
open MeasureTheory Set

/-- a finite law with less probability above the median than below it, at every distance from it -/
structure RightSkew (f : ℝ → ℝ) : Prop where
  fin : IsFiniteMeasure (ofPdf f)
  less : ∀ m t, 0 < t → (ofPdf f).real (Iic m) = 1 / 2 → (ofPdf f).real (Ioc m (m + t)) < (ofPdf f).real (Ioc (m - t) m)

inductive SkewFam
  | gamma (a b : ℝ)
  | chiSquared (n : ℝ)
  | inverseGamma (a b : ℝ)
  | wald (m l : ℝ)
  | moyal (m s : ℝ)
  | gumbel (m b : ℝ)
  | logNormal (m s : ℝ)
  | logLogistic (a b : ℝ)
  | pareto (a m : ℝ)
  | half (F : HalfFam) (s : ℝ)

noncomputable def SkewFam.pdf : SkewFam → ℝ → ℝ
  | .gamma a b => gammaPdf a b
  | .chiSquared n => chiSquaredPdf n
  | .inverseGamma a b => inverseGammaPdf a b
  | .wald m l => waldPdf m l
  | .moyal m s => moyalPdf m s
  | .gumbel m b => gumbelPdf m b
  | .logNormal m s => fun x => if 0 < x then logNormalPdf m s x else 0
  | .logLogistic a b => logLogisticPdf a b
  | .pareto a m => paretoPdf a m
  | .half F s => F.pdf s

def SkewFam.Good : SkewFam → Prop
  | .gamma a b => 0 < a ∧ 0 < b
  | .chiSquared n => 0 < n
  | .inverseGamma a b => 0 < a ∧ 0 < b
  | .wald m l => 0 < m ∧ 0 < l
  | .moyal _ s => 0 < s
  | .gumbel _ b => 0 < b
  | .logNormal _ s => 0 < s
  | .logLogistic a b => 0 < a ∧ 0 < b
  | .pareto a m => 0 < a ∧ 0 < m
  | .half F s => F.Ok ∧ 0 < s

end Verif.Spec
