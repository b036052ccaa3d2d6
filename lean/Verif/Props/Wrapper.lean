import Verif.Model.Wrapper
import Verif.Props.Param
import Verif.Props.Reported

set_option linter.unusedSimpArgs false

/-!
# C13: parameters of the modifiers are labelled correctly
-/

namespace Verif.Props
open Verif Verif.Param Verif.Wrapper

theorem lookup_zip_append {β : Type} (ns ms : List String) (vs ws : List (Option β)) (n : String)
    (h : ns.length = vs.length) :
    ((ns ++ ms).zip (vs ++ ws)).lookup n
      = if n ∈ ns then (ns.zip vs).lookup n else (ms.zip ws).lookup n := by
  induction ns generalizing vs with
  | nil => cases vs with
    | nil => simp
    | cons v vs => simp at h
  | cons a ns ih => cases vs with
    | nil => simp at h
    | cons v vs =>
      simp only [List.cons_append, List.zip_cons_cons, List.lookup_cons, List.mem_cons]
      by_cases hna : n = a
      · simp [hna]
      · have : (n == a) = false := by simpa using hna
        simp only [this, hna, false_or]
        exact ih vs (by simpa using h)

theorem lookup_zip_map (kws : List (String × Option ℝ)) (n : String) :
    (((kws.map Prod.fst).zip ((kws.map Prod.snd).map (Option.map fun r : ℝ => (r : EReal)))).lookup
      n).getD none = ((kws.lookup n).getD none).map fun r : ℝ => (r : EReal) := by
  induction kws with
  | nil => simp
  | cons p kws ih =>
    obtain ⟨a, v⟩ := p
    simp only [List.map_cons, List.zip_cons_cons, List.lookup_cons]
    by_cases h : n == a
    · simp [h]
    · simp only [h]
      exact ih

/-- own argument names of each wrapper -/
def ownNames : Kind → List String
  | .truncated => ["lower", "upper"]
  | .censored => ["lower", "upper"]
  | .hurdle => ["psi"]

/-- the value a wrapper should report for one of its own arguments: what was given, otherwise no bound (`psi` has no
default) -/
noncomputable def ownValue (own : String → Option EReal) (n : String) : Option EReal :=
  match own n with
  | some v => some v
  | none => if n = "lower" then some ⊥ else if n = "upper" then some ⊤ else none

/-- C13 (partial): if the keyword arguments are given exactly under the base's current parameter
names and in that order (in particular when none are given and the base is consistent), the wrapper
labels each base parameter with its own value and its own arguments with theirs, and it is frozen
exactly when every base parameter is given.  Missing: arguments in another order, a proper subset,
or another parametrisation of the base; see the negations below. -/
theorem wrapper_labels_partial (k : Kind) (f : Family) (own : String → Option EReal)
    (kw : List (String × Option ℝ)) (base : Obj) (w : Wrapped)
    (hnames : (kwargsOf base kw).map Prod.fst = base.names)
    (hfresh : ∀ n ∈ ownNames k, n ∉ base.names)
    (h : wrap k f own kw base = .ok w) :
    (∀ n ∈ base.names, w.paramsDict n
      = (((kwargsOf base kw).lookup n).getD none).map fun r : ℝ => (r : EReal)) ∧
    (∀ n ∈ ownNames k, w.paramsDict n = ownValue own n) ∧
    (w.frozen = true ↔ ∀ p ∈ kwargsOf base kw, p.2.isSome) ∧
    w.names = base.names ++ ownNames k := by
  have hext : (ownArgs k own).map Prod.fst = ownNames k := by cases k <;> rfl
  have hw : w.names = base.names ++ (ownArgs k own).map Prod.fst ∧
      w.params = ((kwargsOf base kw).map Prod.snd).map (Option.map fun r : ℝ => (r : EReal))
        ++ (ownArgs k own).map Prod.snd ∧
      (w.frozen = true ↔ ∀ p ∈ kwargsOf base kw, p.2.isSome) := by
    unfold wrap wrapParam at h
    dsimp only at h
    by_cases ha : allNotNone ((kwargsOf base kw).map Prod.snd) = true
    · rw [if_pos ha] at h
      have ha' : ∀ p ∈ kwargsOf base kw, p.2.isSome := by
        unfold allNotNone at ha
        rw [List.all_eq_true] at ha
        intro p hp; exact ha _ (List.mem_map_of_mem hp)
      split_ifs at h with hk
      cases hp : parametrize f (fun n => ((kwargsOf base kw).lookup n).getD none) base with
      | error e => rw [hp] at h; simp at h
      | ok b' =>
        rw [hp] at h
        simp only [Except.ok_bind', Except.pure_eq, Except.ok.injEq] at h
        subst h
        exact ⟨rfl, rfl, by simpa using ha'⟩
    · rw [if_neg ha] at h
      simp only [Except.pure_eq, Except.ok.injEq] at h
      subst h
      refine ⟨rfl, rfl, ?_⟩
      simp only [Bool.false_eq_true, false_iff]
      intro hall
      apply ha
      unfold allNotNone
      rw [List.all_eq_true]
      intro v hv
      obtain ⟨p, hp, rfl⟩ := List.mem_map.1 hv
      exact hall p hp
  obtain ⟨h1, h2, h3⟩ := hw
  have hlen : base.names.length
      = (((kwargsOf base kw).map Prod.snd).map (Option.map fun r : ℝ => (r : EReal))).length := by
    rw [← hnames]; simp
  refine ⟨?_, ?_, h3, by rw [h1, hext]⟩
  · intro n hn
    unfold Wrapped.paramsDict
    rw [h1, h2, lookup_zip_append _ _ _ _ _ hlen, if_pos hn, ← hnames]
    exact lookup_zip_map _ n
  · intro n hn
    unfold Wrapped.paramsDict
    rw [h1, h2, lookup_zip_append _ _ _ _ _ hlen, if_neg (hfresh n hn)]
    unfold ownValue
    cases k <;> simp only [ownNames, List.mem_cons, List.not_mem_nil, or_false] at hn <;>
      first
        | (rcases hn with rfl | rfl <;> cases ho : own _ <;> simp [ownArgs, List.lookup, ho])
        | (subst hn; cases ho : own _ <;> simp [ownArgs, List.lookup, ho])

/-- the hypotheses are met by `Truncated(Normal(mu=1, sigma=2), 0, 5)` -/
example : ∃ base, construct .normal (Spec.kwOf [("mu", 1), ("sigma", 2)]) = .ok base ∧
    (kwargsOf base []).map Prod.fst = base.names ∧ (∀ n ∈ ownNames .truncated, n ∉ base.names) ∧
    ∃ w, wrap .truncated .normal (fun n => if n = "lower" then some 0 else some 5) [] base = .ok w := by
  simp [construct, parametrize, normalParam, Spec.kwOf, List.lookup, allNotNone, anyNotNone,
    normalUpdate, Obj.setAll, Obj.set, kwargsOf, ownNames, wrap, wrapParam, ownArgs, Spec.args,
    Spec.ways, Spec.Way.plain, blank]

/-- C13, what fails: keyword arguments in another order.  `Truncated(Normal(), sigma=2, mu=1)` reports
`mu = 2` and `sigma = 1`, while the base is Normal(1, 2). -/
theorem wrapper_order_mislabelled (k : Kind) (own : String → Option EReal) :
    ∃ base w, construct .normal (fun _ => none) = .ok base ∧
      wrap k .normal own [("sigma", some 2), ("mu", some 1)] base = .ok w ∧ w.frozen = true ∧
      w.base.attr "mu" = some 1 ∧ w.base.attr "sigma" = some 2 ∧
      w.paramsDict "mu" = some ((2 : ℝ) : EReal) ∧ w.paramsDict "sigma" = some ((1 : ℝ) : EReal) := by
  refine ⟨?base, ?w, ?_, ?_, ?_⟩
  rotate_left 2
  · simp [construct, parametrize, normalParam, allNotNone, anyNotNone]
    rfl
  · simp [wrap, wrapParam, kwargsOf, allNotNone, anyNotNone, Spec.args, Spec.ways, Spec.Way.plain,
      parametrize, normalParam, List.lookup]
    rfl
  · cases k <;> simp [Wrapped.paramsDict, ownArgs, normalUpdate, Obj.setAll, Obj.set, List.lookup, blank,
      Function.update]

/-- C13, what fails: only some of the base's parameters given.  `Truncated(Normal(), 0, 5, mu=3)` is
frozen although sigma is unknown, and reports the lower bound as `sigma`. -/
theorem wrapper_subset_frozen :
    ∃ base w, construct .normal (fun _ => none) = .ok base ∧
      wrap .truncated .normal (fun n => if n = "lower" then some 0 else some 5) [("mu", some 3)] base
        = .ok w ∧
      w.frozen = true ∧ w.base.frozen = false ∧ w.paramsDict "sigma" = some 0 ∧
      w.paramsDict "lower" = some 5 := by
  refine ⟨?base, ?w, ?_, ?_, ?_⟩
  rotate_left 2
  · simp [construct, parametrize, normalParam, allNotNone, anyNotNone]
    rfl
  · simp [wrap, wrapParam, kwargsOf, allNotNone, anyNotNone, Spec.args, Spec.ways, Spec.Way.plain,
      parametrize, normalParam, List.lookup]
    rfl
  · simp [Wrapped.paramsDict, ownArgs, Obj.setAll, Obj.set, List.lookup, blank, Function.update]

/-- C13, what fails: another parametrisation of the base.  `Truncated(Gamma(), mu=2, sigma=1)` reports
`alpha = 2`, `beta = 1`, while the base is Gamma(alpha=4, beta=2). -/
theorem wrapper_parametrisation_mislabelled (k : Kind) (own : String → Option EReal) :
    ∃ base w, construct .gamma (fun _ => none) = .ok base ∧
      wrap k .gamma own [("mu", some 2), ("sigma", some 1)] base = .ok w ∧
      w.base.attr "alpha" = some 4 ∧ w.base.attr "beta" = some 2 ∧
      w.paramsDict "alpha" = some ((2 : ℝ) : EReal) ∧ w.paramsDict "beta" = some ((1 : ℝ) : EReal) := by
  have hconv : gammaFromMuSigma 2 1 = .ok (4, 2) := by
    unfold gammaFromMuSigma
    simp [pyDiv]
    norm_num
  refine ⟨?base, ?w, ?_, ?_, ?_⟩
  rotate_left 2
  · simp [construct, parametrize, gammaLikeParam, allNotNone, anyNotNone]
    rfl
  · simp [wrap, wrapParam, kwargsOf, allNotNone, anyNotNone, Spec.args, Spec.ways, Spec.Way.plain,
      parametrize, gammaLikeParam, List.lookup, hconv]
    rfl
  · cases k <;> simp [Wrapped.paramsDict, ownArgs, gammaUpdate, Obj.setAll, Obj.set, List.lookup, blank,
      Function.update]

/-- C13, what fails: `Hurdle(Poisson(mu))` without `psi` is frozen. -/
theorem hurdle_frozen_without_psi (mu : ℝ) :
    ∃ base w, construct (.simple .poisson) (Spec.kwOf [("mu", mu)]) = .ok base ∧
      wrap .hurdle (.simple .poisson) (fun _ => none) [] base = .ok w ∧ w.frozen = true ∧
      w.paramsDict "psi" = none := by
  refine ⟨?base, ?w, ?_, ?_, ?_⟩
  rotate_left 2
  · simp [construct, parametrize, simpleParam, simpleFam, Spec.kwOf, List.lookup, allNotNone]
    rfl
  · simp [wrap, wrapParam, kwargsOf, allNotNone, anyNotNone, Spec.args, Spec.ways, Spec.Way.plain,
      parametrize, simpleParam, simpleFam, simpleUpdate, List.lookup, Obj.setAll, Obj.set, blank]
    rfl
  · simp [Wrapped.paramsDict, ownArgs, simpleUpdate, simpleFam, Obj.setAll, Obj.set, List.lookup, blank,
      Function.update]

/-- Refitting a modifier forgets its own arguments: whatever the bounds were, after `_fit_moments` the
bounds are infinite, and a hurdle has no `psi`. -/
theorem refit_forgets_bounds (k : Kind) (f : Family) (fitted : Obj) (w w' : Wrapped)
    (hfit : (fitted.params.getD []).length = fitted.names.length) (hne : fitted.names ≠ [])
    (hfresh : ∀ n ∈ ownNames k, n ∉ fitted.names) (h : refit k f fitted w = .ok w') :
    (k ≠ .hurdle → w'.paramsDict "lower" = some ⊥ ∧ w'.paramsDict "upper" = some ⊤) ∧
    (k = .hurdle → w'.paramsDict "psi" = none) := by
  have hz : (fitted.names.zip (fitted.params.getD [])).map Prod.fst = fitted.names :=
    List.map_fst_zip (by rw [hfit])
  have hkw : kwargsOf fitted (fitted.names.zip (fitted.params.getD []))
      = fitted.names.zip (fitted.params.getD []) := by
    unfold kwargsOf
    rw [if_neg]
    intro he
    rw [List.isEmpty_iff] at he
    rw [he] at hz
    exact hne hz.symm
  unfold refit wrapParam at h
  rw [hkw] at h
  dsimp only at h
  have hw : w'.names = fitted.names ++ (ownArgs k fun _ => none).map Prod.fst ∧
      w'.params = ((fitted.names.zip (fitted.params.getD [])).map Prod.snd).map
        (Option.map fun r : ℝ => (r : EReal)) ++ (ownArgs k fun _ => none).map Prod.snd := by
    split_ifs at h with h1 h2
    · cases hp : parametrize f (fun n => ((fitted.names.zip (fitted.params.getD [])).lookup n).getD
          none) fitted with
      | error e => rw [hp] at h; simp at h
      | ok b' =>
        rw [hp] at h
        simp only [Except.ok_bind', Except.pure_eq, Except.ok.injEq] at h
        subst h; exact ⟨rfl, rfl⟩
    · simp only [Except.pure_eq, Except.ok.injEq] at h
      subst h; exact ⟨rfl, rfl⟩
  have hlen : fitted.names.length
      = (((fitted.names.zip (fitted.params.getD [])).map Prod.snd).map
          (Option.map fun r : ℝ => (r : EReal))).length := by
    simp [hfit]
  have key : ∀ n ∈ ownNames k, w'.paramsDict n = ((ownArgs k fun _ => none).lookup n).getD none := by
    intro n hn
    unfold Wrapped.paramsDict
    rw [hw.1, hw.2, lookup_zip_append _ _ _ _ _ hlen, if_neg (hfresh n hn)]
    cases k <;> rfl
  cases k
  · refine ⟨fun _ => ⟨?_, ?_⟩, by simp⟩
    · rw [key "lower" (by simp [ownNames])]; rfl
    · rw [key "upper" (by simp [ownNames])]; rfl
  · refine ⟨fun _ => ⟨?_, ?_⟩, by simp⟩
    · rw [key "lower" (by simp [ownNames])]; rfl
    · rw [key "upper" (by simp [ownNames])]; rfl
  · refine ⟨by simp, fun _ => ?_⟩
    rw [key "psi" (by simp [ownNames])]; rfl

/-- Arguments with one of them missing change neither the base nor whether the modifier counts as complete:
a modifier that was complete stays complete. -/
theorem wrapper_missing_argument (k : Kind) (f : Family) (own : String → Option EReal)
    (kw : List (String × Option ℝ)) (base : Obj) (frozen : Bool) (n : String)
    (hn : (n, none) ∈ kw) :
    ∃ w, wrapParam k f own kw base frozen = .ok w ∧ w.base = base ∧ w.frozen = frozen := by
  have hk : kwargsOf base kw = kw := by
    unfold kwargsOf
    rw [if_neg]
    intro h
    rw [List.isEmpty_iff.1 h] at hn
    simp at hn
  have ha : allNotNone (kw.map Prod.snd) = false := by
    simp only [allNotNone, List.all_eq_false, List.mem_map]
    exact ⟨none, ⟨_, hn, rfl⟩, by simp⟩
  refine ⟨_, by simp only [wrapParam, hk, ha]; rfl, rfl, rfl⟩

example (base : Obj) : ∃ w, wrapParam .truncated .normal (fun _ => none) [("mu", some 1), ("sigma", none)] base true
    = .ok w ∧ w.base = base ∧ w.frozen = true :=
  wrapper_missing_argument .truncated .normal _ _ base true "sigma" (by simp)

end Verif.Props
