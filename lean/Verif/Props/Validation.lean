import Verif.Model.Optim
import Verif.Spec.Optim
import Verif.Spec.Param

/-!
# C30, C31: end-point checks and argument validation
-/

namespace Verif.Props
open Verif Verif.Param Verif.Optim Verif.Spec

/-! ## C30 -/

/-- an end of a support that is a number -/
def IsFin (e : EReal) : Prop := ∃ r : ℝ, e = r

theorem isFin_iff (e : EReal) : IsFin e ↔ e ≠ ⊥ ∧ e ≠ ⊤ := by
  constructor
  · rintro ⟨r, rfl⟩; exact ⟨EReal.coe_ne_bot r, EReal.coe_ne_top r⟩
  · rintro ⟨h1, h2⟩; exact ⟨e.toReal, (EReal.coe_toReal h2 h1).symm⟩

/-- C30: the raising form raises exactly when a bound is beyond a finite end of the support or the
bounds are a bounded support itself; the error is a `ValueError`. -/
theorem endpoints_raise_iff (sl su lower upper : EReal) :
    (checkEndpoints sl su lower upper = .ok () ∨ checkEndpoints sl su lower upper = .error .valueError) ∧
    (checkEndpoints sl su lower upper = .error .valueError ↔
      (IsFin sl ∧ lower < sl) ∨ (IsFin su ∧ su < upper) ∨
      (IsFin sl ∧ IsFin su ∧ lower = sl ∧ upper = su)) := by
  simp only [isFin_iff]
  unfold checkEndpoints
  constructor
  · split_ifs <;> simp
  · split_ifs <;> simp_all <;> tauto

/-- C30: the boolean form is true exactly when both bounds are inside the closed support. -/
theorem endpoints_bool_iff (sl su lower upper : EReal) :
    insideEndpoints sl su lower upper ↔ sl ≤ lower ∧ upper ≤ su := Iff.rfl

/-- C30: where the boolean form is true the raising form only raises for the whole bounded support;
where it is false the raising form raises too, whatever the (real) bounds. -/
theorem endpoints_agree (sl su : EReal) (lower upper : ℝ) (h1 : sl ≠ ⊤) (h2 : su ≠ ⊥) :
    (insideEndpoints sl su lower upper →
      (checkEndpoints sl su lower upper = .error .valueError ↔ (lower : EReal) = sl ∧ (upper : EReal) = su)) ∧
    (¬ insideEndpoints sl su lower upper → checkEndpoints sl su lower upper = .error .valueError) := by
  constructor
  · rintro ⟨ha, hb⟩
    rw [(endpoints_raise_iff _ _ _ _).2]
    constructor
    · rintro (⟨-, h⟩ | ⟨-, h⟩ | ⟨-, -, h, h'⟩)
      · exact absurd ha (not_le.mpr h)
      · exact absurd hb (not_le.mpr h)
      · exact ⟨h, h'⟩
    · rintro ⟨h, h'⟩
      exact .inr (.inr ⟨⟨lower, h.symm⟩, ⟨upper, h'.symm⟩, h, h'⟩)
  · intro h
    rw [(endpoints_raise_iff _ _ _ _).2]
    simp only [insideEndpoints, ge_iff_le, not_and_or, not_le] at h
    rcases h with h | h
    · exact .inl ⟨(isFin_iff _).mpr ⟨(bot_lt_of_lt h).ne', h1⟩, h⟩
    · exact .inr (.inl ⟨(isFin_iff _).mpr ⟨h2, (lt_top_of_lt h).ne⟩, h⟩)

/-- a half-bounded support (Gamma): (0, 5) is accepted, (-1, 5) rejected -/
example : checkEndpoints 0 ⊤ 0 5 = .ok () ∧ checkEndpoints 0 ⊤ (-1) 5 = .error .valueError := by
  constructor
  · simp [checkEndpoints]
  · have : ((-1 : ℝ) : EReal) < ((0 : ℝ) : EReal) := EReal.coe_lt_coe_iff.mpr (by norm_num)
    have : (-1 : EReal) < 0 := by simpa using this
    simp [checkEndpoints, this]

/-! ## C31 -/

/-- the request is well formed for an object `o` that is about to be fitted -/
def WellFormed (sl su : EReal) (ciProb : ℝ) (r : Request) (o : Obj) : Prop :=
  (∀ s, r.fixedStat = some s → s.1 ∈ ["mean", "mode", "median", "var", "std", "skewness", "kurtosis"]) ∧
  0 < r.mass.getD ciProb ∧ r.mass.getD ciProb ≤ 1 ∧ r.lower < r.upper ∧ o.frozen = false ∧
  ¬ ((IsFin sl ∧ (r.lower : EReal) < sl) ∨ (IsFin su ∧ su < (r.upper : EReal)) ∨
      (IsFin sl ∧ IsFin su ∧ (r.lower : EReal) = sl ∧ (r.upper : EReal) = su))

theorem maxent_core (f : Family) (sl su : EReal) (hasMode : Bool) (ciProb : ℝ) (fm : Obj → Obj)
    (r : Request) (o o₁ : Obj)
    (hs : applyFixed f r.fixedParams o = .ok o₁) :
    (¬ WellFormed sl su ciProb r o₁ ∧
      maxentPrelude f sl su hasMode ciProb fm r o = (.error .valueError, o₁)) ∨
    (WellFormed sl su ciProb r o₁ ∧ (∃ s, r.fixedStat = some s ∧ s.1 = "mode") ∧ hasMode = false ∧
      maxentPrelude f sl su hasMode ciProb fm r o = (.error .valueError, fm o₁)) ∨
    (WellFormed sl su ciProb r o₁ ∧ ¬ ((∃ s, r.fixedStat = some s ∧ s.1 = "mode") ∧ hasMode = false) ∧
      maxentPrelude f sl su hasMode ciProb fm r o = (.ok (getFixedParams o₁), fm o₁)) := by
  unfold maxentPrelude
  dsimp only
  rw [hs]
  dsimp only
  by_cases c1 : badStat r.fixedStat = true
  · left
    rw [if_pos c1]
    refine ⟨?_, rfl⟩
    rintro ⟨h, -⟩
    cases hst : r.fixedStat with
    | none => simp [hst, badStat] at c1
    | some s =>
      have := h s hst
      simp [hst, badStat, validStats] at c1
      simp_all
  have hstat : ∀ s, r.fixedStat = some s →
      s.1 ∈ ["mean", "mode", "median", "var", "std", "skewness", "kurtosis"] := by
    intro s hst
    simp [hst, badStat, validStats] at c1
    simp only [List.mem_cons, List.not_mem_nil, or_false]
    tauto
  rw [if_neg c1]
  by_cases c2 : ¬ (0 < r.mass.getD ciProb ∧ r.mass.getD ciProb ≤ 1)
  · left
    rw [if_pos c2]
    exact ⟨fun h => c2 ⟨h.2.1, h.2.2.1⟩, rfl⟩
  rw [if_neg c2]
  push Not at c2
  by_cases c3 : r.upper ≤ r.lower
  · left
    rw [if_pos c3]
    exact ⟨fun h => absurd h.2.2.2.1 (not_lt.mpr c3), rfl⟩
  rw [if_neg c3]
  push Not at c3
  by_cases c4 : o₁.frozen = true
  · left
    rw [if_pos c4]
    exact ⟨fun h => by simp [h.2.2.2.2.1] at c4, rfl⟩
  rw [if_neg c4]
  rcases (endpoints_raise_iff sl su r.lower r.upper).1 with he | he
  · have hwf : WellFormed sl su ciProb r o₁ := by
      refine ⟨hstat, c2.1, c2.2, c3, by simpa using c4, ?_⟩
      rw [← (endpoints_raise_iff sl su r.lower r.upper).2, he]
      simp
    rw [he]
    right
    by_cases c5 : (wantsMode r.fixedStat && !hasMode) = true
    · left
      dsimp only
      rw [if_pos c5]
      cases hst : r.fixedStat with
      | none => simp [hst, wantsMode] at c5
      | some s =>
        simp [hst, wantsMode] at c5
        exact ⟨hwf, ⟨s, rfl, c5.1⟩, c5.2, rfl⟩
    · right
      dsimp only
      rw [if_neg c5]
      refine ⟨hwf, ?_, rfl⟩
      rintro ⟨⟨s, h1, h2⟩, h3⟩
      apply c5
      simp [h1, h2, h3, wantsMode]
  · left
    rw [he]
    refine ⟨?_, rfl⟩
    rintro ⟨-, -, -, -, -, h⟩
    exact h ((endpoints_raise_iff sl su r.lower r.upper).2.mp he)

/-- C31: `maxent` without `fixed_params` accepts a request exactly when it is well formed (and, if the
mode is fixed, the distribution has a mode); otherwise it raises `ValueError`.  A request rejected for
being malformed leaves the object untouched. -/
theorem maxent_accepts_iff (f : Family) (sl su : EReal) (hasMode : Bool) (ciProb : ℝ) (fm : Obj → Obj)
    (r : Request) (o : Obj) (hfix : r.fixedParams = none) :
    ((∃ s, (maxentPrelude f sl su hasMode ciProb fm r o).1 = .ok s) ↔
      WellFormed sl su ciProb r o ∧ ¬ ((∃ s, r.fixedStat = some s ∧ s.1 = "mode") ∧ hasMode = false)) ∧
    (∀ e, (maxentPrelude f sl su hasMode ciProb fm r o).1 = .error e → e = .valueError) ∧
    (¬ WellFormed sl su ciProb r o → (maxentPrelude f sl su hasMode ciProb fm r o).2 = o) := by
  have h := maxent_core f sl su hasMode ciProb fm r o o (by rw [hfix]; rfl)
  rcases h with ⟨h1, h2⟩ | ⟨h1, h2, h3, h4⟩ | ⟨h1, h2, h3⟩
  · rw [h2]; simp [h1]
  · rw [h4]; simp [h1, h2, h3]
  · rw [h3]; exact ⟨⟨fun _ => ⟨h1, h2⟩, fun _ => ⟨_, rfl⟩⟩, by simp, fun h => absurd h1 h⟩

/-- C31 with `fixed_params`: accepted requests satisfy the same conditions for the re-parametrised
object. -/
theorem maxent_accepts_fixed (f : Family) (sl su : EReal) (hasMode : Bool) (ciProb : ℝ)
    (fm : Obj → Obj) (r : Request) (o : Obj) (kw : Kw) (hfix : r.fixedParams = some kw)
    (s : List ℕ × List ℝ) (h : (maxentPrelude f sl su hasMode ciProb fm r o).1 = .ok s) :
    ∃ o₁, parametrize f kw o = .ok o₁ ∧ WellFormed sl su ciProb r o₁ ∧ s = getFixedParams o₁ := by
  cases hp : parametrize f kw o with
  | error e => simp [maxentPrelude, applyFixed, hfix, hp] at h
  | ok o₁ =>
    refine ⟨o₁, rfl, ?_⟩
    rcases maxent_core f sl su hasMode ciProb fm r o o₁ (by simp [applyFixed, hfix, hp]) with
      ⟨h1, h2⟩ | ⟨h1, h2, h3, h4⟩ | ⟨h1, h2, h3⟩
    · rw [h2] at h; simp at h
    · rw [h4] at h; simp at h
    · rw [h3] at h; simp at h; exact ⟨h1, h.symm⟩

/-- a well-formed and a malformed request -/
example : WellFormed ⊥ ⊤ 0.94 ⟨none, some 0.9, none, 0, 1⟩ blank ∧
    ¬ WellFormed ⊥ ⊤ 0.94 ⟨none, some 0, none, 0, 1⟩ blank := by
  have h1 : ¬ IsFin ⊥ := by simp [isFin_iff]
  have h2 : ¬ IsFin ⊤ := by simp [isFin_iff]
  constructor
  · refine ⟨by simp, by norm_num, by norm_num, by norm_num, rfl, ?_⟩
    rintro (⟨h, -⟩ | ⟨h, -⟩ | ⟨h, -⟩)
    · exact h1 h
    · exact h2 h
    · exact h1 h
  · rintro ⟨-, h, -⟩
    norm_num at h

/-- C31 fails with `fixed_params`: they are applied first, so a request rejected for its mass has
already changed the object. -/
theorem rejected_request_changes_object :
    ∃ (r : Request) (o o' : Obj),
      construct .normal (kwOf [("mu", 0)]) = .ok o ∧
      maxentPrelude .normal ⊥ ⊤ true 0.94 id r o = (.error .valueError, o') ∧
      r.mass = some 0 ∧ o.attr "mu" = some 0 ∧ o'.attr "mu" = some 5 := by
  refine ⟨⟨some (kwOf [("mu", 5)]), some 0, none, 0, 1⟩,
    ⟨(blank.setAll [("mu", some 0), ("sigma", none)]).attr, ["mu", "sigma"], none, false⟩,
    ⟨((blank.setAll [("mu", some 0), ("sigma", none)]).setAll [("mu", some 5), ("sigma", none)]).attr,
      ["mu", "sigma"], none, false⟩, ?_, ?_, rfl, ?_, ?_⟩
  · simp [construct, parametrize, normalParam, kwOf, List.lookup, allNotNone, blank, Obj.setAll, Obj.set]
  · simp [maxentPrelude, applyFixed, badStat, parametrize, normalParam, kwOf, List.lookup, allNotNone,
      blank, Obj.setAll, Obj.set]
  · simp [Obj.setAll, Obj.set]
  · simp [Obj.setAll, Obj.set]

/-- C31 fails for a fixed mode that the distribution does not implement: the object has been replaced
by its moment fit when the error is raised. -/
theorem mode_rejection_changes_object (fm : Obj → Obj) (o : Obj) (hfr : o.frozen = false) :
    maxentPrelude .normal ⊥ ⊤ false 0.94 fm ⟨none, none, some ("mode", 0), 0, 1⟩ o
      = (.error .valueError, fm o) := by
  rcases maxent_core .normal ⊥ ⊤ false 0.94 fm ⟨none, none, some ("mode", 0), 0, 1⟩ o o rfl with
    ⟨h1, -⟩ | ⟨-, -, -, h⟩ | ⟨-, h, -⟩
  · exfalso
    apply h1
    refine ⟨by simp, by norm_num, by norm_num, by norm_num, hfr, ?_⟩
    simp [isFin_iff]
  · exact h
  · exact absurd ⟨⟨_, rfl, rfl⟩, rfl⟩ h

/-- the quartiles are increasing and inside the support of an object with a free parameter -/
def QuartilesOk (sl su : EReal) (q1 q2 q3 : ℝ) (o : Obj) : Prop :=
  q1 < q2 ∧ q2 < q3 ∧ o.frozen = false ∧
  ¬ ((IsFin sl ∧ (q1 : EReal) < sl) ∨ (IsFin su ∧ su < (q3 : EReal)) ∨
      (IsFin sl ∧ IsFin su ∧ (q1 : EReal) = sl ∧ (q3 : EReal) = su))

/-- C31: `quartile` accepts exactly increasing quartiles inside the support of an object with a free
parameter, otherwise raises `ValueError` and leaves the object untouched. -/
theorem quartile_accepts_iff (f : Family) (sl su : EReal) (fm : Obj → Obj) (q1 q2 q3 : ℝ) (o : Obj) :
    (QuartilesOk sl su q1 q2 q3 o →
      quartilePrelude f sl su fm none q1 q2 q3 o = (.ok (getFixedParams o), fm o)) ∧
    (¬ QuartilesOk sl su q1 q2 q3 o →
      quartilePrelude f sl su fm none q1 q2 q3 o = (.error .valueError, o)) := by
  unfold quartilePrelude QuartilesOk applyFixed
  dsimp only
  rw [← (endpoints_raise_iff sl su q1 q3).2]
  by_cases c1 : q1 < q2 ∧ q2 < q3
  · by_cases c2 : o.frozen = true
    · simp [c1, c2]
    · rcases (endpoints_raise_iff sl su q1 q3).1 with he | he
      · simp [c1, c2, he]
      · simp [c1, c2, he]
  · constructor
    · rintro ⟨h1, h2, -⟩; exact absurd ⟨h1, h2⟩ c1
    · intro _; rw [if_pos c1]

example : QuartilesOk 0 ⊤ 1 2 3 blank := by
  refine ⟨by norm_num, by norm_num, rfl, ?_⟩
  rintro (⟨-, h⟩ | ⟨h, -⟩ | ⟨-, h, -⟩)
  · exact absurd h (not_lt.mpr (by exact_mod_cast (by norm_num : (0 : ℝ) ≤ 1)))
  · simp [isFin_iff] at h
  · simp [isFin_iff] at h

end Verif.Props
