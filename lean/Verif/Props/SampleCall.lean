import Verif.Spec.SampleCall
import Mathlib.Tactic

/-!
# C144: the shape of a sample, with and without a size
-/

namespace Verif.Props
open Verif Verif.Sample Verif.SampleCall

private theorem shape_of_mixture {d : Dist} (h : DrawsMixture d) (s : Size) :
    sampleShape d s = mixShape s := by
  induction h with
  | mixture ds => rfl
  | censored _ ih => exact ih

private theorem shape_of_other {s : Size} : (d : Dist) → ¬ DrawsMixture d →
    sampleShape d s = .ok (shape s)
  | .family _, _ => rfl
  | .categorical, _ => rfl
  | .truncated _, _ => rfl
  | .hurdle _, _ => rfl
  | .censored d, h => shape_of_other d fun h' => h (.censored h')
  | .mixture ds, h => absurd (.mixture ds) h

private theorem mixShape_eq (s : Size) :
    mixShape s = .ok (shape s) ↔ ∃ n, 0 < n ∧ shape s = [n] := by
  unfold mixShape
  constructor
  · intro h
    split at h
    · cases h
    · rename_i h0
      rw [Except.ok.injEq] at h
      exact ⟨entries (shape s), Nat.pos_of_ne_zero h0, h.symm⟩
  · rintro ⟨n, hn, h⟩
    have : entries [n] = n := by simp [entries]
    rw [h, this, if_neg (by omega)]

/-- C144: a positive whole number of values gives one dimension with that many entries, whatever the
distribution and however it is nested. -/
theorem rvs_count (d : Dist) {n : ℕ} (hn : 0 < n) : rvs d (some (.int n)) = .ok [n] := by
  by_cases h : DrawsMixture d
  · exact (shape_of_mixture h _).trans ((mixShape_eq _).2 ⟨n, hn, rfl⟩)
  · exact shape_of_other d h

/-- C144: a given size is respected exactly if no Mixture is drawn from or the size is a single
positive dimension. -/
theorem rvs_size_respected (d : Dist) (s : Size) :
    rvs d (some s) = .ok (shape s) ↔ ¬ DrawsMixture d ∨ ∃ n, 0 < n ∧ shape s = [n] := by
  by_cases h : DrawsMixture d
  · rw [show rvs d (some s) = mixShape s from shape_of_mixture h s, mixShape_eq]
    simp [h]
  · exact ⟨fun _ => Or.inl h, fun _ => shape_of_other d h⟩

/-- C144: asking for no values at all is an error exactly for Mixtures, censored or not. -/
theorem rvs_size_error (d : Dist) (s : Size) :
    (∃ e, rvs d (some s) = .error e) ↔ DrawsMixture d ∧ 0 ∈ shape s := by
  by_cases h : DrawsMixture d
  · rw [show rvs d (some s) = mixShape s from shape_of_mixture h s]
    unfold mixShape entries
    simp only [h, true_and, List.prod_eq_zero_iff]
    by_cases h0 : 0 ∈ shape s <;> simp [h0]
  · rw [show rvs d (some s) = .ok (shape s) from shape_of_other d h]
    simp [h]

/-- C144: without a size the result is a single number exactly if the distribution is not a Rice and
draws from no Mixture; -/
theorem rvs_no_size (d : Dist) :
    rvs d none = .ok [] ↔ d ≠ .family .rice ∧ ¬ DrawsMixture d := by
  by_cases h : DrawsMixture d
  · have hd : defaultSize d = .none := by cases h <;> rfl
    rw [show rvs d none = mixShape .none by
      unfold rvs; rw [Option.getD_none, hd]; exact shape_of_mixture h _]
    simp [h, mixShape, entries, shape]
  · rw [show rvs d none = .ok (shape (defaultSize d)) from shape_of_other d h, Except.ok.injEq]
    simp only [h, not_false_eq_true, and_true]
    by_cases hr : d = .family .rice
    · subst hr; simp [defaultSize, shape]
    · have hd : defaultSize d = .none := by
        unfold defaultSize; split
        · exact absurd rfl hr
        · rfl
      simp [hr, hd, shape]

/-- C144: otherwise it is an array with one entry; it never is an error. -/
theorem rvs_no_size_array (d : Dist) :
    rvs d none = .ok [1] ↔ d = .family .rice ∨ DrawsMixture d := by
  constructor
  · intro h
    by_contra hc
    rw [not_or] at hc
    rw [(rvs_no_size d).2 hc] at h
    simp at h
  · rintro (rfl | h)
    · rfl
    · have hd : defaultSize d = .none := by cases h <;> rfl
      rw [show rvs d none = mixShape .none by
        unfold rvs; rw [Option.getD_none, hd]; exact shape_of_mixture h _]
      rfl

/-- C144: leaving out the size is the same as `size=None` for every distribution but Rice. -/
theorem rvs_default_is_none (d : Dist) :
    rvs d none = rvs d (some .none) ↔ d ≠ .family .rice := by
  constructor
  · rintro h rfl
    cases h
  · intro h
    have hd : defaultSize d = .none := by
      unfold defaultSize; split
      · exact absurd rfl h
      · rfl
    unfold rvs
    rw [Option.getD_none, hd, Option.getD_some]

/-! ## The hypotheses are met -/

example : rvs (.family .rice) none = .ok [1] ∧ rvs (.family .normal) none = .ok [] ∧
    rvs (.censored (.family .rice)) none = .ok [] ∧ rvs (.truncated (.family .rice)) none = .ok [] :=
  ⟨rfl, rfl, rfl, rfl⟩
example : DrawsMixture (.censored (.censored (.mixture [.family .normal, .family .rice]))) :=
  .censored (.censored (.mixture _))
example : ¬ DrawsMixture (.truncated (.mixture [.family .normal])) := fun h => by cases h
example : rvs (.censored (.mixture [.family .normal])) (some (.tuple [2, 3])) = .ok [6] ∧
    rvs (.censored (.mixture [.family .normal])) (some (.tuple [2, 0])) = .error .valueError :=
  ⟨rfl, rfl⟩
example : rvs (.mixture [.family .rice]) (some (.int 4)) = .ok [4] := rvs_count _ (by norm_num)

end Verif.Props
