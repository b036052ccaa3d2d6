import Verif.Spec.LocScale

/-!
# The Pareto distributions with a given mass on an interval (C129)
-/

namespace Verif.Spec

/-- how far (on the logarithmic scale) the smallest value of the best Pareto distribution lies below the upper end of the
interval `[l, u]`, for the mass `p`: as far as `l`, unless `c / (c - 1)` is less, where `c = -log (1 - p)` -/
noncomputable def paretoReach (l u p : ℝ) : ℝ :=
  if -Real.log (1 - p) ≤ 1 then Real.log (u / l)
  else min (Real.log (u / l)) (-Real.log (1 - p) / (-Real.log (1 - p) - 1))

/-- its smallest value `m` -/
noncomputable def paretoStart (l u p : ℝ) : ℝ := u * Real.exp (-paretoReach l u p)

/-- its exponent `alpha` -/
noncomputable def paretoShape (l u p : ℝ) : ℝ := -Real.log (1 - p) / paretoReach l u p

/-- proposals of the optimiser that are Pareto distributions: `alpha` and `m` -/
def ParetoGood (x : List ℝ) : Prop := ∃ a m : ℝ, x = [a, m] ∧ 0 < a ∧ 0 < m

/-- the density of a proposal -/
noncomputable def paretoOf (x : List ℝ) : ℝ → ℝ := paretoPdf (x.getD 0 0) (x.getD 1 0)

end Verif.Spec
