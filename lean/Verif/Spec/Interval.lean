import Mathlib.MeasureTheory.Measure.Real
import Mathlib.MeasureTheory.Constructions.BorelSpace.Real
import Mathlib.Analysis.SpecialFunctions.Trigonometric.Basic

/-!
# What intervals, grids, modes and circular intervals should be
-/

namespace Verif.Spec
open MeasureTheory

/-- `[lo, hi]` leaves at most `(1 - m) / 2` of probability strictly on each side, and each closed
tail carries at least that much (so neither end could be moved inwards without breaking this). -/
structure EqualTailed (μ : Measure ℝ) (m lo hi : ℝ) : Prop where
  ordered : lo ≤ hi
  below : μ.real (Set.Iio lo) ≤ (1 - m) / 2
  above : μ.real (Set.Ioi hi) ≤ (1 - m) / 2
  left_tight : (1 - m) / 2 ≤ μ.real (Set.Iic lo)
  right_tight : (1 - m) / 2 ≤ μ.real (Set.Ici hi)

/-- mass of the grid points of a closed interval -/
def massIn (f : ℤ → ℝ) (grid : List ℤ) (a b : ℤ) : ℝ :=
  ((grid.filter fun x => a ≤ x ∧ x ≤ b).map f).sum

/-- number of grid points of a closed interval -/
def countIn (grid : List ℤ) (a b : ℤ) : ℕ := (grid.filter fun x => a ≤ x ∧ x ≤ b).length

/-- a possible result of sorting by decreasing mass: no promise about ties -/
def IsDescending (f : ℤ → ℝ) (grid : List ℤ) (sorted : List (ℤ × ℝ)) : Prop :=
  sorted.Perm (grid.map fun x => (x, f x)) ∧ sorted.Pairwise fun a b => a.2 ≥ b.2

/-- no dip between two grid points -/
def UnimodalOn (f : ℤ → ℝ) (grid : List ℤ) : Prop :=
  ∀ x ∈ grid, ∀ y ∈ grid, ∀ z ∈ grid, x < y → y < z → min (f x) (f z) ≤ f y

/-- the angle `b` is the angle `a` up to full turns, in the standard range -/
def SameAngle (a b : ℝ) : Prop :=
  b ∈ Set.Ioc (-Real.pi) Real.pi ∧ ∃ k : ℤ, b = a + k * (2 * Real.pi)

end Verif.Spec
