import Verif.Model.Support
import Verif.Model.Interactive
import Verif.Props.Interactive
import Verif.Spec.LocScale
import Verif.Spec.HalfScale
import Verif.Spec.QuartileShape
import Mathlib.Tactic

/-!
# C104: the bounds used by the fits and the sliders are `params_support`
-/

namespace Verif.Props
open Verif Verif.Param Verif.Spec Verif.Support

/-- bounds with missing ends read as infinite -/
noncomputable def wide (b : Option ℝ × Option ℝ) : EReal × Option EReal :=
  ((b.1.map fun x : ℝ => (x : EReal)).getD ⊥, some ((b.2.map fun x : ℝ => (x : EReal)).getD ⊤))

/-- **C104**: the object made with the start values of a family has the bounds of C98 as its `params_support`. -/
theorem start_bounds_attribute (f : Family) : ∃ s, sConstruct f (Interactive.kwOf (Interactive.startVals f)) = .ok s ∧
    s.box = (Interactive.bounds 50 f).map wide := by
  obtain ⟨o, ho, -, hn, -⟩ := start_frozen f
  unfold Interactive.startObj at ho
  have e : boxOf (Interactive.kwOf (Interactive.startVals f) "N") o.names f = (Interactive.bounds 50 f).map wide := by
    rw [hn]
    rcases f with t | _
    · cases t <;> simp [boxOf, Interactive.bounds, wide, pos, free, unit, Interactive.kwOf, Interactive.startVals]
    all_goals simp [boxOf, Interactive.bounds, wide, pos, free, unit, Interactive.startVals]
  have h : ∃ s, sConstruct f (Interactive.kwOf (Interactive.startVals f)) = .ok s ∧
      s.box = boxOf (Interactive.kwOf (Interactive.startVals f) "N") o.names f := by
    unfold sConstruct
    rw [ho]
    exact ⟨_, rfl, rfl⟩
  obtain ⟨s, h1, h2⟩ := h
  exact ⟨s, h1, h2.trans e⟩

/-- **C104**: the bounds of the numerical maximum likelihood fit of C66 are the attribute. -/
theorem ml_bounds_attribute (f : Family) (N : Option ℝ) (names : List String) (h : paramsSupport f names ≠ []) :
    boxOf N names f = (paramsSupport f names).map fun b => (b.1, some b.2) := by
  cases f <;> simp [paramsSupport, boxOf, pos, free, unit] at h ⊢ <;> split_ifs <;> simp

/-- **C104**: so are the bounds of the fits of C116, C117 and C120. -/
theorem fit_bounds_attribute :
    (∀ F : PeakFam, ∃ s, sConstruct F.family F.given = .ok s ∧ s.box = F.box.map fun b => (b.1, some b.2)) ∧
    (∀ F : HalfFam, ∃ s, sConstruct F.family F.given = .ok s ∧ s.box = F.box.map fun b => (b.1, some b.2)) ∧
    ∀ F : TwoFam, ∃ s, sConstruct F.family (fun _ => none) = .ok s ∧ s.box = F.box.map fun b => (b.1, some b.2) := by
  refine ⟨fun F => ?_, fun F => ?_, fun F => ?_⟩
  · cases F <;> simp [sConstruct, construct, PeakFam.family, PeakFam.given, parametrize, normalParam, studentTParam, simpleParam,
      simpleFam, allNotNone, Except.ok_bind', Except.pure_eq, boxOf, PeakFam.box, pos, free]
  · cases F <;> simp [sConstruct, construct, HalfFam.family, HalfFam.given, parametrize, exponentialParam, halfNormalParam,
      halfStudentTParam, simpleParam, simpleFam, allNotNone, Except.ok_bind', Except.pure_eq, boxOf, HalfFam.box, pos]
  · cases F <;> simp [sConstruct, construct, TwoFam.family, parametrize, simpleParam, simpleFam, allNotNone, Except.ok_bind',
      Except.pure_eq, boxOf, TwoFam.box, pos, free]

end Verif.Props
