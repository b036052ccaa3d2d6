import Verif.Model.Refit
import Verif.Spec.Rebuild
import Mathlib.Tactic

set_option linter.unusedSimpArgs false

namespace Verif.Refit
open Verif Verif.Param Verif.NumFit Verif.Spec

/-- both raise the same exception, or both give objects that report the same -/
def Same (f : Family) : Except Err Obj → Except Err Obj → Prop
  | .ok a, .ok b => law f a = law f b ∧ a.names = b.names ∧ a.params = b.params
  | .error e, .error e' => e = e'
  | _, _ => False

theorem names_simple {s : Simple} {names : List String} (h : names ∈ exactNames (.simple s)) :
    names = (simpleFam s).args := by simpa [exactNames] using h

theorem update_same (f : Family) (vals : List ℝ) (o o' : Obj) (hn : o.names = o'.names)
    (hx : o.names ∈ exactNames f) : Same f (update f vals o) (update f vals o') := by
  have hx' : o'.names ∈ exactNames f := hn ▸ hx
  cases f with
  | simple s =>
    simp only [update]
    split_ifs with h
    · cases s <;> simp only [simpleFam, List.length_cons, List.length_nil] at h <;>
      first
      | (obtain ⟨a, rfl⟩ := List.length_eq_one_iff.1 h
         simp [Same, law, lawAttrs, simpleUpdate, simpleFam, Obj.setAll, Obj.set, Function.update, hn])
      | (obtain ⟨a, b, rfl⟩ := List.length_eq_two.1 h
         simp [Same, law, lawAttrs, simpleUpdate, simpleFam, Obj.setAll, Obj.set, Function.update, hn])
      | (obtain ⟨a, b, c, rfl⟩ := List.length_eq_three.1 h
         simp [Same, law, lawAttrs, simpleUpdate, simpleFam, Obj.setAll, Obj.set, Function.update, hn])
      | (match vals, h with
         | [a, b, c, d], _ =>
          simp [Same, law, lawAttrs, simpleUpdate, simpleFam, Obj.setAll, Obj.set, Function.update, hn])
    · rfl
  | _ =>
    simp only [exactNames, List.mem_cons, List.not_mem_nil, or_false] at hx hx'
    rcases vals with _ | ⟨a, _ | ⟨b, _ | ⟨c, _ | ⟨d, _ | ⟨e, t⟩⟩⟩⟩⟩ <;> simp only [update] <;>
    first
    | rfl
    | (rw [← hn] at hx'
       rcases hx with h | h | h <;> 
       (have h' := hn ▸ h
        simp [Same, law, lawAttrs, Obj.setAll, Obj.set, Function.update, h, h', normalUpdate, skewNormalUpdate,
          skewStudentTUpdate, asymLaplaceUpdate, betaUpdate, gammaUpdate, invGammaUpdate, riceUpdate, waldUpdate,
          kumaraswamyUpdate, exponentialUpdate, halfNormalUpdate, halfStudentTUpdate, studentTUpdate, nbUpdate,
          zinbUpdate, bernoulliUpdate, betaScaledUpdate]))
    | (rw [← hn] at hx'
       rcases hx with h | h <;> 
       (have h' := hn ▸ h
        simp [Same, law, lawAttrs, Obj.setAll, Obj.set, Function.update, h, h', normalUpdate, skewNormalUpdate,
          skewStudentTUpdate, asymLaplaceUpdate, betaUpdate, gammaUpdate, invGammaUpdate, riceUpdate, waldUpdate,
          kumaraswamyUpdate, exponentialUpdate, halfNormalUpdate, halfStudentTUpdate, studentTUpdate, nbUpdate,
          zinbUpdate, bernoulliUpdate, betaScaledUpdate]))
    | (rw [← hn] at hx'
       rename' hx => h
       have h' := hn ▸ h
       simp [Same, law, lawAttrs, Obj.setAll, Obj.set, Function.update, h, h', normalUpdate, skewNormalUpdate,
          skewStudentTUpdate, asymLaplaceUpdate, betaUpdate, gammaUpdate, invGammaUpdate, riceUpdate, waldUpdate,
          kumaraswamyUpdate, exponentialUpdate, halfNormalUpdate, halfStudentTUpdate, studentTUpdate, nbUpdate,
          zinbUpdate, bernoulliUpdate, betaScaledUpdate])

/-- the first parametrisation of a family: the one an object without arguments has -/
noncomputable def firstNames (f : Family) : List String := ((exactNames f).head?).getD []

theorem setAll_names' (kvs : List (String × Option ℝ)) : ∀ o : Obj, (o.setAll kvs).names = o.names := by
  induction kvs with
  | nil => intro o; rfl
  | cons a l ih => intro o; exact (ih (o.set a.1 a.2)).trans rfl

theorem update_names (f : Family) (vals : List ℝ) (o o' : Obj) (h : update f vals o = .ok o') :
    o'.names = o.names := by
  cases f with
  | simple s =>
    simp only [update] at h
    split_ifs at h
    simp only [Except.ok.injEq] at h
    subst h
    simp [simpleUpdate, setAll_names']
  | _ =>
    rcases vals with _ | ⟨a, _ | ⟨b, _ | ⟨c, _ | ⟨d, _ | ⟨e, t⟩⟩⟩⟩⟩ <;>
      simp only [update, Except.ok.injEq, reduceCtorEq] at h <;>
      (subst h
       simp only [normalUpdate, skewNormalUpdate,
          skewStudentTUpdate, asymLaplaceUpdate, betaUpdate, gammaUpdate, invGammaUpdate, riceUpdate, waldUpdate,
          kumaraswamyUpdate, exponentialUpdate, halfNormalUpdate, halfStudentTUpdate, studentTUpdate, nbUpdate,
          zinbUpdate, bernoulliUpdate, betaScaledUpdate, apply_ite Obj.names, ite_self]
       simp [Obj.setAll, Obj.set])

theorem update_complete (f : Family) (hw : way f = .numericStart) (vals : List ℝ) (o o' : Obj)
    (hx : o.names ∈ exactNames f) (h : update f vals o = .ok o') : ∀ k ∈ o'.names, (o'.attr k).isSome := by
  have hn := update_names f vals o o' h
  rw [hn]
  cases f with
  | simple s =>
    rw [names_simple hx]
    simp only [update] at h
    split_ifs at h with hl
    simp only [Except.ok.injEq] at h
    subst h
    cases s <;> simp only [way, reduceCtorEq] at hw <;> simp only [simpleFam, List.length_cons, List.length_nil] at hl <;>
      first
      | (obtain ⟨a, b, rfl⟩ := List.length_eq_two.1 hl
         simp [simpleUpdate, simpleFam, Obj.setAll, Obj.set, Function.update])
      | (obtain ⟨a, b, c, rfl⟩ := List.length_eq_three.1 hl
         simp [simpleUpdate, simpleFam, Obj.setAll, Obj.set, Function.update])
  | _ =>
    simp only [way, reduceCtorEq] at hw <;>
    (simp only [exactNames, List.mem_cons, List.not_mem_nil, or_false] at hx
     rcases vals with _ | ⟨a, _ | ⟨b, _ | ⟨c, _ | ⟨d, _ | ⟨e, t⟩⟩⟩⟩⟩ <;>
      simp only [update, Except.ok.injEq, reduceCtorEq] at h <;>
      (subst h
       first
       | (rw [hx]
          simp [Obj.setAll, Obj.set, Function.update, hx, skewNormalUpdate, skewStudentTUpdate, kumaraswamyUpdate])
       | (rcases hx with h | h <;> rw [h] <;>
          simp [Obj.setAll, Obj.set, Function.update, h, nbUpdate, zinbUpdate])))

theorem int64_idem (x : ℝ) : int64 (int64 x) = int64 x := by
  have hi : ∀ n : ℤ, int64 (n : ℝ) = n := by intro n; simp [int64]
  by_cases h : 0 ≤ x
  · rw [show int64 x = ((⌊x⌋ : ℤ) : ℝ) by simp [int64, h], hi]
  · rw [show int64 x = ((⌈x⌉ : ℤ) : ℝ) by simp [int64, h], hi]

/-- passing the reported parameters back by position gives the same law -/
theorem position_law (f : Family) (vals : List ℝ) (o o' : Obj) (hx : o.names = firstNames f)
    (h : update f vals o = .ok o') (o'' : Obj) :
    ∃ o3, parametrize f (byPosition f (o'.params.getD [])) o'' = .ok o3 ∧ law f o3 = law f o' ∧ o3.names = o'.names ∧
      o3.params = o'.params := by
  cases f with
  | simple s =>
    have hx : o.names = (simpleFam s).args := hx
    simp only [update] at h
    split_ifs at h with hl
    simp only [Except.ok.injEq] at h
    subst h
    refine ⟨_, rfl, ?_⟩
    cases s <;> simp only [simpleFam, List.length_cons, List.length_nil] at hl hx <;>
      first
      | (obtain ⟨a, rfl⟩ := List.length_eq_one_iff.1 hl
         simp [simpleUpdate, simpleParam, simpleFam, Obj.setAll, Obj.set, Function.update, byPosition, dictOf, positional,
           List.lookup, allNotNone, law, lawAttrs, hx, int64_idem])
      | (obtain ⟨a, b, rfl⟩ := List.length_eq_two.1 hl
         simp [simpleUpdate, simpleParam, simpleFam, Obj.setAll, Obj.set, Function.update, byPosition, dictOf, positional,
           List.lookup, allNotNone, law, lawAttrs, hx, int64_idem])
      | (obtain ⟨a, b, c, rfl⟩ := List.length_eq_three.1 hl
         simp [simpleUpdate, simpleParam, simpleFam, Obj.setAll, Obj.set, Function.update, byPosition, dictOf, positional,
           List.lookup, allNotNone, law, lawAttrs, hx, int64_idem])
      | (match vals, hl with
         | [a, b, c, d], _ =>
          simp [simpleUpdate, simpleParam, simpleFam, Obj.setAll, Obj.set, Function.update, byPosition, dictOf, positional,
           List.lookup, allNotNone, law, lawAttrs, hx, int64_idem])
  | _ =>
    rcases vals with _ | ⟨a, _ | ⟨b, _ | ⟨c, _ | ⟨d, _ | ⟨e, t⟩⟩⟩⟩⟩ <;>
      simp only [update, Except.ok.injEq, reduceCtorEq] at h <;>
      (subst h
       simp only [firstNames, exactNames, List.head?_cons, Option.getD_some] at hx
       simp [Obj.setAll, Obj.set, Function.update, hx, byPosition, dictOf, positional, List.lookup, allNotNone, anyNotNone,
         law, lawAttrs, parametrize, pyAnd,
         normalUpdate, skewNormalUpdate,
          skewStudentTUpdate, asymLaplaceUpdate, betaUpdate, gammaUpdate, invGammaUpdate, riceUpdate, waldUpdate,
          kumaraswamyUpdate, exponentialUpdate, halfNormalUpdate, halfStudentTUpdate, studentTUpdate, nbUpdate,
          zinbUpdate, bernoulliUpdate, betaScaledUpdate, normalParam, skewNormalParam,
          skewStudentTParam, asymLaplaceParam, betaParam, gammaLikeParam, riceParam, waldParam,
          kumaraswamyParam, exponentialParam, halfNormalParam, halfStudentTParam, studentTParam, nbParam,
          zinbParam, bernoulliParam, betaScaledParam]
       try (split_ifs <;> simp))

/-- passing the reported parameters back by name gives the same law -/
theorem name_law (f : Family) (vals : List ℝ) (o o' : Obj) (hx : o.names = firstNames f)
    (h : update f vals o = .ok o') (o'' : Obj) :
    ∃ o3, parametrize f (o'.paramsDict) o'' = .ok o3 ∧ law f o3 = law f o' ∧ o3.names = o'.names ∧
      o3.params = o'.params := by
  cases f with
  | simple s =>
    have hx : o.names = (simpleFam s).args := hx
    simp only [update] at h
    split_ifs at h with hl
    simp only [Except.ok.injEq] at h
    subst h
    refine ⟨_, rfl, ?_⟩
    cases s <;> simp only [simpleFam, List.length_cons, List.length_nil] at hl hx <;>
      first
      | (obtain ⟨a, rfl⟩ := List.length_eq_one_iff.1 hl
         simp [simpleUpdate, simpleParam, simpleFam, Obj.setAll, Obj.set, Function.update, Obj.paramsDict, dictOf,
           List.lookup, allNotNone, law, lawAttrs, hx, int64_idem])
      | (obtain ⟨a, b, rfl⟩ := List.length_eq_two.1 hl
         simp [simpleUpdate, simpleParam, simpleFam, Obj.setAll, Obj.set, Function.update, Obj.paramsDict, dictOf,
           List.lookup, allNotNone, law, lawAttrs, hx, int64_idem])
      | (obtain ⟨a, b, c, rfl⟩ := List.length_eq_three.1 hl
         simp [simpleUpdate, simpleParam, simpleFam, Obj.setAll, Obj.set, Function.update, Obj.paramsDict, dictOf,
           List.lookup, allNotNone, law, lawAttrs, hx, int64_idem])
      | (match vals, hl with
         | [a, b, c, d], _ =>
          simp [simpleUpdate, simpleParam, simpleFam, Obj.setAll, Obj.set, Function.update, Obj.paramsDict, dictOf,
           List.lookup, allNotNone, law, lawAttrs, hx, int64_idem])
  | _ =>
    rcases vals with _ | ⟨a, _ | ⟨b, _ | ⟨c, _ | ⟨d, _ | ⟨e, t⟩⟩⟩⟩⟩ <;>
      simp only [update, Except.ok.injEq, reduceCtorEq] at h <;>
      (subst h
       simp only [firstNames, exactNames, List.head?_cons, Option.getD_some] at hx
       simp [Obj.setAll, Obj.set, Function.update, hx, Obj.paramsDict, dictOf, List.lookup, allNotNone, anyNotNone,
         law, lawAttrs, parametrize, pyAnd,
         normalUpdate, skewNormalUpdate,
          skewStudentTUpdate, asymLaplaceUpdate, betaUpdate, gammaUpdate, invGammaUpdate, riceUpdate, waldUpdate,
          kumaraswamyUpdate, exponentialUpdate, halfNormalUpdate, halfStudentTUpdate, studentTUpdate, nbUpdate,
          zinbUpdate, bernoulliUpdate, betaScaledUpdate, normalParam, skewNormalParam,
          skewStudentTParam, asymLaplaceParam, betaParam, gammaLikeParam, riceParam, waldParam,
          kumaraswamyParam, exponentialParam, halfNormalParam, halfStudentTParam, studentTParam, nbParam,
          zinbParam, bernoulliParam, betaScaledParam]
       try (split_ifs <;> simp))

end Verif.Refit
