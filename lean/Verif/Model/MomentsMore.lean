import Verif.Model.Modifier
import Mathlib.Analysis.SpecialFunctions.Trigonometric.Basic

/-!
# Moment matching for HalfStudentT, ExGaussian and mixtures

distributions/halfstudentt.py:165-184, distributions/exgaussian.py:129-131, distributions/mixture.py:146-150.

The gamma function (internal/special.py:29-47, an approximation in floating point) is a parameter; `none` is a value
that is not finite.
-/

namespace Verif.MomentsMore
open Verif Verif.Modifier

/-- halfstudentt.py:168-172 -/
noncomputable def chosenNu : Option ℝ → ℝ
  | none => 100
  | some nu => if nu ≤ 2 then 2.1 else nu

/-- halfstudentt.py:165-184: nu and sigma, the arguments of `_update` -/
noncomputable def halfStudentTMoments (gamma : ℝ → Option ℝ) (nu : Option ℝ) (sigma : ℝ) : ℝ × ℝ :=
  let n := chosenNu nu
  match gamma ((n + 1) / 2), gamma (n / 2) with
  | some g0, some g1 =>
    (n, Real.sqrt (sigma ^ 2 / (n / (n - 2) - 4 * n / (Real.pi * (n - 1) ^ 2) * (g0 / g1) ^ 2)))
  | _, _ => (n, sigma / Real.sqrt (1 - 2 / Real.pi))

/-- exgaussian.py:129-131: mu, sigma and nu -/
noncomputable def exGaussianMoments (mean sigma : ℝ) : ℝ × ℝ × ℝ := (mean, sigma, 1e-4)

/-- what a mixture holds: the components, the weights, and `params` as last collected by `_parametrization`
(mixture.py:51-75): the parameters of the components and the weights.  `C` is the type of components. -/
structure Mix (C : Type) where
  comps : List C
  weights : Option (List ℝ)
  params : List (Option ℝ) × Option (List ℝ)
  frozen : Bool

/-- mixture.py:51-75; `params c` are the parameters of a component -/
noncomputable def Mix.make {C : Type} (params : C → List (Option ℝ)) (comps : List C) (weights : Option (List ℝ)) :
    Mix C :=
  let ps := comps.flatMap params
  let frozen := ps.all Option.isSome && weights.isSome
  { comps, params := (ps, weights), frozen,
    weights := if frozen then weights.map mixWeights else weights }

/-- mixture.py:146-150; `fit` is `_fit_moments` of a component -/
noncomputable def Mix.fitMoments {C : Type} (fit : ℝ → ℝ → C → C) (mean sigma : ℝ) (m : Mix C) : Mix C :=
  { m with
    comps := m.comps.map (fit mean sigma)
    frozen := true
    weights := some (mixFitWeights m.comps.length) }

end Verif.MomentsMore
