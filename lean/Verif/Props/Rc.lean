import Verif.Lemmas.Rc
import Mathlib.Data.List.ReduceOption

/-!
# C36, C37, C38: settings, temporary settings, configuration files
-/

set_option linter.unusedSimpArgs false

namespace Verif.Props
open Verif Verif.Rc Verif.Spec

variable (env : PyEnv)

/-! ## An interpreter environment for the examples -/

/-- a small environment: lower-casing only knows three words, one numeral is readable -/
noncomputable def exampleEnv : PyEnv where
  strOf := fun v => match v with | .str s => s | _ => "?"
  lower := fun s => if s = "HDI" then "hdi" else if s = "True" then "true" else s
  parseFloat := fun s =>
    if s = "0.5" then some (some ((0.5 : ℝ) : EReal)) else if s = "nan" then some none else none
  isSpace := fun c => c == ' ' || c == '\n'
  strOf_str := fun _ => rfl
  lower_eti := by simp
  lower_hdi := by simp
  space_hash := by simp
  space_colon := by simp

/-- settings used in the examples -/
noncomputable def exampleStore : Store := fun k =>
  if k = "stats.ci_kind" then some (.str "hdi")
  else if k = "stats.ci_prob" then some (.num (some ((0.5 : ℝ) : EReal)))
  else if k = "plots.show_plot" then some (.bool false) else none

theorem exampleStore_settled : Settled False exampleStore := by
  refine ⟨?_, ?_, ?_, ?_⟩
  · intro k
    unfold exampleStore
    by_cases h1 : k = "stats.ci_kind"
    · simp [h1]
    by_cases h2 : k = "stats.ci_prob"
    · simp [h2]
    by_cases h3 : k = "plots.show_plot"
    · simp [h3]
    · simp [h1, h2, h3]
  · simp [exampleStore]
  · exact Or.inl ⟨0.5, by norm_num, by norm_num, by simp [exampleStore]⟩
  · exact ⟨false, by simp [exampleStore]⟩

theorem settled_weaken {s : Store} (h : Settled False s) : Settled True s :=
  ⟨h.keys, h.kind, h.prob.imp id (fun h => h.1.elim), h.plot⟩

/-! ## C36 -/

/-- without a configuration file the library starts with the documented defaults -/
theorem defaults_loaded : ∃ s, rcParamsInit env none = .ok s ∧ Settled False s ∧
    s "stats.ci_kind" = some (.str "eti") ∧
    s "stats.ci_prob" = some (.num (some ((0.89 : ℝ) : EReal))) ∧
    s "plots.show_plot" = some (.bool true) := by
  have h1 : Stable "stats.ci_kind" (.str "eti") := Or.inl ⟨rfl, Or.inl rfl⟩
  have h2 : Stable "stats.ci_prob" (.num (some ((0.89 : ℝ) : EReal))) :=
    Or.inr (Or.inl ⟨rfl, Or.inr ⟨0.89, by norm_num, by norm_num, rfl⟩⟩)
  have h3 : Stable "plots.show_plot" (.bool true) := Or.inr (Or.inr ⟨rfl, true, rfl⟩)
  refine ⟨Function.update (Function.update (Function.update (fun _ => none) "stats.ci_kind"
    (some (.str "eti"))) "stats.ci_prob" (some (.num (some ((0.89 : ℝ) : EReal)))))
    "plots.show_plot" (some (.bool true)), ?_, ?_, ?_, ?_, ?_⟩
  · simp only [rcParamsInit, defaults, updateItems, setItem_stable env _ h1,
      setItem_stable env _ h2, setItem_stable env _ h3, finish, Except.ok_bind', Except.pure_eq]
  · refine ⟨?_, by simp, Or.inl ⟨0.89, by norm_num, by norm_num, by simp⟩, true, by simp⟩
    intro k
    by_cases h1 : k = "stats.ci_kind"
    · simp [h1]
    by_cases h2 : k = "stats.ci_prob"
    · simp [h2]
    by_cases h3 : k = "plots.show_plot"
    · simp [h3]
    · simp [h1, h2, h3]
  · simp
  · simp
  · simp

/-- Partial: whatever is done to the settings, succeeding or failing, exactly the documented keys are
there, with a valid kind and a truth value, and the probability is in [0,1] **or NaN** (`nan_accepted`
shows that NaN gets in). -/
theorem settings_invariant_partial {s : Store} (hs : Settled True s) (ops : List Op) :
    Settled True (ops.foldl (fun s o => (apply env s o).2) s) := by
  induction ops generalizing s with
  | nil => exact hs
  | cons o os ih =>
    refine ih ?_
    cases o with
    | set k v =>
      rcases setItem_cases env s k v with ⟨e, h⟩ | ⟨w, hw, h⟩
      · simpa only [apply, h] using hs
      · simpa only [apply, h] using settled_update hs hw
    | update l =>
      exact updateItems_ind env (Settled True) (fun s k w hs hw => settled_update hs hw) l s hs
    | _ => exact hs

example : Settled True (([.set "stats.ci_prob" (.num none), .clear, .set "x" .none] : List Op).foldl
    (fun s o => (apply exampleEnv s o).2) exampleStore) :=
  settings_invariant_partial exampleEnv (settled_weaken exampleStore_settled) _

/-- the values an operation tries to store -/
def Op.values : Op → List PyVal
  | .set _ v => [v]
  | .update l => l.map Prod.snd
  | _ => []

private theorem setItem_noNan {s : Store} (hs : Settled False s) (k : String) (v : PyVal)
    (hv : toFloat env v ≠ .ok none) : Settled False (setItem env s k v).2 := by
  rcases setItem_cases env s k v with ⟨e, h⟩ | ⟨w, hw, h⟩
  · simpa only [h] using hs
  · have ht : Settled True (setItem env s k v).2 := by
      rw [h]; exact settled_update (settled_weaken hs) hw
    refine ⟨ht.keys, ht.kind, ?_, ht.plot⟩
    rcases ht.prob with hp | ⟨-, hp⟩
    · exact Or.inl hp
    · exfalso
      by_cases hk : k = "stats.ci_prob"
      · subst hk
        rw [setItem_prob] at h
        cases hvp : validateProbability env v with
        | error e => rw [hvp] at h; simp [commit] at h
        | ok u =>
          obtain ⟨x, hx, rfl, hx'⟩ := prob_out env hvp
          rw [setItem_prob, hvp] at hp
          simp [commit] at hp
          subst hp
          exact hv hx
      · rw [h] at hp
        simp only [Function.update_of_ne (Ne.symm hk)] at hp
        rcases hs.prob with ⟨p, _, _, h'⟩ | ⟨h', -⟩
        · rw [h'] at hp; simp at hp
        · exact h'

/-- as long as no assigned value reads as NaN, the probability is a number in [0,1] as well -/
theorem settings_invariant_numbers {s : Store} (hs : Settled False s) (ops : List Op)
    (hn : ∀ o ∈ ops, ∀ v ∈ Op.values o, toFloat env v ≠ .ok none) :
    Settled False (ops.foldl (fun s o => (apply env s o).2) s) := by
  induction ops generalizing s with
  | nil => exact hs
  | cons o os ih =>
    refine ih ?_ fun o' ho' => hn o' (by simp [ho'])
    have hno := hn o (by simp)
    cases o with
    | set k v => exact setItem_noNan env hs k v (hno v (by simp [Op.values]))
    | update l =>
      have hl : ∀ p ∈ l, toFloat env p.2 ≠ .ok none := fun p hp =>
        hno p.2 (by simp only [Op.values, List.mem_map]; exact ⟨p, hp, rfl⟩)
      clear hno hn ih
      show Settled False (updateItems env s l).2
      induction l generalizing s with
      | nil => exact hs
      | cons x xs ihl =>
        obtain ⟨k, v⟩ := x
        have h1 := setItem_noNan env hs k v (hl (k, v) (by simp))
        rw [updateItems]
        cases hr : setItem env s k v with
        | mk r t =>
          rw [hr] at h1
          cases r with
          | error e => exact h1
          | ok u => exact ihl h1 fun p hp => hl p (by simp [hp])
    | _ => exact hs

example : Settled False (([.set "stats.ci_prob" (.str "0.5"), .update [("stats.ci_prob", .num (some 2))]]
    : List Op).foldl (fun s o => (apply exampleEnv s o).2) exampleStore) := by
  refine settings_invariant_numbers exampleEnv exampleStore_settled _ ?_
  simp [Op.values, toFloat, exampleEnv]

/-- negation of the claim that the probability is always a number: NaN is accepted and stored -/
theorem nan_accepted (s : Store) :
    (apply env s (.set "stats.ci_prob" (.num none))).1 = .ok () ∧
    (apply env s (.set "stats.ci_prob" (.num none))).2 "stats.ci_prob" = some (.num none) := by
  simp [apply, setItem_prob, validateProbability, toFloat, commit]

/-- an assignment that fails, and every attempt to remove a key, leaves all settings as they were -/
theorem failed_assignment_unchanged (s : Store) (o : Op) (hu : ∀ l, o ≠ .update l) (e : Err)
    (h : (apply env s o).1 = .error e) : (apply env s o).2 = s := by
  cases o with
  | set k v =>
    rcases setItem_cases env s k v with ⟨e', h'⟩ | ⟨w, hw, h'⟩
    · simp [apply, h']
    · simp [apply, h'] at h
  | update l => exact absurd rfl (hu l)
  | _ => rfl

example : (apply exampleEnv exampleStore (.set "stats.ci_prob" (.str "many"))).1 =
    .error .valueError := by
  simp [apply, setItem_prob, validateProbability, toFloat, exampleEnv, commit]

theorem removal_rejected (s : Store) (k : String) (v : PyVal) :
    (apply env s (.del k)).1 = .error .typeError ∧ (apply env s (.pop k)).1 = .error .typeError ∧
    (apply env s .popitem).1 = .error .typeError ∧ (apply env s .clear).1 = .error .typeError ∧
    (apply env s (.setdefault k v)).1 = .error .typeError :=
  ⟨rfl, rfl, rfl, rfl, rfl⟩

/-- a multiple assignment that fails stops at the failing item: the items before it are stored, it and
the later ones are not -/
theorem failed_update_prefix (s : Store) (l : List (String × PyVal)) (e : Err)
    (h : (apply env s (.update l)).1 = .error e) :
    ∃ pre k v post, l = pre ++ (k, v) :: post ∧ (apply env s (.update pre)).1 = .ok () ∧
      (apply env s (.update l)).2 = (apply env s (.update pre)).2 ∧
      (apply env (apply env s (.update pre)).2 (.set k v)).1 = .error e := by
  simp only [apply] at h ⊢
  induction l generalizing s with
  | nil => simp [updateItems] at h
  | cons x xs ih =>
    obtain ⟨k, v⟩ := x
    rcases setItem_cases env s k v with ⟨e', h'⟩ | ⟨w, hw, h'⟩
    · refine ⟨[], k, v, xs, rfl, rfl, ?_, ?_⟩
      · simp [updateItems, h']
      · simp [updateItems, h'] at h ⊢; exact h
    · have hstep : ∀ l, updateItems env s ((k, v) :: l) =
          updateItems env (Function.update s k (some w)) l := by
        intro l; simp [updateItems, h']
      rw [hstep] at h
      obtain ⟨pre, k', v', post, rfl, h1, h2, h3⟩ := ih _ h
      refine ⟨(k, v) :: pre, k', v', post, rfl, ?_, ?_, ?_⟩
      · rw [hstep]; exact h1
      · rw [hstep, hstep]; exact h2
      · rw [hstep]; exact h3

example : (apply exampleEnv exampleStore (.update [("stats.ci_kind", .str "eti"), ("nope", .none)])).1
    = .error .keyError := by
  simp [apply, updateItems, setItem_kind, validateKind, exampleEnv, commit,
    setItem_unknown _ (k := "nope")]

/-- a probability is accepted exactly when it lies in [0,1], and stored as it is -/
theorem assign_probability (s : Store) (p : ℝ) :
    ((apply env s (.set "stats.ci_prob" (.num (some p)))).1 = .ok () ↔ 0 ≤ p ∧ p ≤ 1) ∧
    (0 ≤ p ∧ p ≤ 1 → (apply env s (.set "stats.ci_prob" (.num (some p)))).2 =
      Function.update s "stats.ci_prob" (some (.num (some (p : EReal))))) ∧
    (¬ (0 ≤ p ∧ p ≤ 1) →
      (apply env s (.set "stats.ci_prob" (.num (some p)))).1 = .error .valueError) := by
  have key : (apply env s (.set "stats.ci_prob" (.num (some p)))) =
      if 0 ≤ p ∧ p ≤ 1 then
        (.ok (), Function.update s "stats.ci_prob" (some (.num (some (p : EReal)))))
      else (.error .valueError, s) := by
    simp only [apply, setItem_prob, validateProbability, toFloat, Except.ok_bind', Except.pure_eq]
    by_cases hp : 0 ≤ p ∧ p ≤ 1
    · have : ¬ ((p : EReal) < 0 ∨ (p : EReal) > 1) := by
        push Not; exact ⟨by exact_mod_cast hp.1, by exact_mod_cast hp.2⟩
      rw [if_neg this, if_pos hp]; rfl
    · have : ((p : EReal) < 0 ∨ (p : EReal) > 1) := by
        rcases not_and_or.1 hp with h | h
        · exact Or.inl (by push Not at h; exact_mod_cast h)
        · exact Or.inr (by push Not at h; exact_mod_cast h)
      rw [if_pos this, if_neg hp]; rfl
  rw [key]
  by_cases hp : 0 ≤ p ∧ p ≤ 1
  · simp [hp]
  · simp [hp]

/-- Which values are accepted as a probability, and what is stored: numbers in [0,1], text that reads
as such a number, `True`/`False` (as 1 and 0) and NaN; `None` and objects that are not numbers are a
`TypeError`, everything else a `ValueError`. -/
theorem assign_probability_other (s : Store) (t : String) (b : Bool) (i : ℕ) :
    apply env s (.set "stats.ci_prob" (.bool b)) =
      (.ok (), Function.update s "stats.ci_prob" (some (.num (some (if b then 1 else 0))))) ∧
    apply env s (.set "stats.ci_prob" (.npBool b)) =
      (.ok (), Function.update s "stats.ci_prob" (some (.num (some (if b then 1 else 0))))) ∧
    apply env s (.set "stats.ci_prob" .none) = (.error .typeError, s) ∧
    apply env s (.set "stats.ci_prob" (.other i)) = (.error .typeError, s) ∧
    (env.parseFloat t = none →
      apply env s (.set "stats.ci_prob" (.str t)) = (.error .valueError, s)) ∧
    (∀ x, env.parseFloat t = some x → apply env s (.set "stats.ci_prob" (.str t)) =
      apply env s (.set "stats.ci_prob" (.num x))) := by
  have hb : ¬ ((if b then (1 : EReal) else 0) < 0 ∨ (if b then (1 : EReal) else 0) > 1) := by
    cases b <;> simp
  refine ⟨?_, ?_, ?_, ?_, fun h => ?_, fun x h => ?_⟩
  · simp only [apply, setItem_prob, validateProbability, toFloat, Except.ok_bind', Except.pure_eq]
    rw [if_neg hb]; rfl
  · simp only [apply, setItem_prob, validateProbability, toFloat, Except.ok_bind', Except.pure_eq]
    rw [if_neg hb]; rfl
  · simp [apply, setItem_prob, validateProbability, toFloat, commit]
  · simp [apply, setItem_prob, validateProbability, toFloat, commit]
  · simp [apply, setItem_prob, validateProbability, toFloat, commit, h]
  · simp [apply, setItem_prob, validateProbability, toFloat, h]

/-- a kind is accepted exactly when its text is `eti` or `hdi` up to case -/
theorem assign_kind (s : Store) (v : PyVal) :
    ((apply env s (.set "stats.ci_kind" v)).1 = .ok () ↔
      env.lower (env.strOf v) = "eti" ∨ env.lower (env.strOf v) = "hdi") ∧
    ((apply env s (.set "stats.ci_kind" v)).1 = .ok () →
      (apply env s (.set "stats.ci_kind" v)).2 =
        Function.update s "stats.ci_kind" (some (.str (env.lower (env.strOf v))))) := by
  simp only [apply, setItem_kind, validateKind]
  by_cases h : env.lower (env.strOf v) = "eti" ∨ env.lower (env.strOf v) = "hdi"
  · rw [if_pos h]; simp [commit, h]
  · rw [if_neg h]; simp [commit, h]

/-- `True` and `False` are stored as they are -/
theorem assign_plot (s : Store) (b : Bool) :
    apply env s (.set "plots.show_plot" (.bool b)) =
      (.ok (), Function.update s "plots.show_plot" (some (.bool b))) := by
  simp [apply, setItem_plot, validateBoolean, commit]

/-- numbers and NumPy booleans equal to `True` are accepted but stored as `False` -/
theorem truthy_stored_false (s : Store) :
    apply env s (.set "plots.show_plot" (.num (some 1))) =
      (.ok (), Function.update s "plots.show_plot" (some (.bool false))) ∧
    apply env s (.set "plots.show_plot" (.npBool true)) =
      (.ok (), Function.update s "plots.show_plot" (some (.bool false))) := by
  simp [apply, setItem_plot, validateBoolean, commit]

/-- assigning a setting does not touch the other ones, and unknown names are rejected -/
theorem assign_other (s : Store) (k k' : String) (v : PyVal) (h : k' ≠ k) :
    (apply env s (.set k v)).2 k' = s k' := by
  rcases setItem_cases env s k v with ⟨e, h'⟩ | ⟨w, hw, h'⟩
  · simp [apply, h']
  · simp [apply, h', Function.update_of_ne h]

theorem assign_unknown (s : Store) (k : String) (v : PyVal)
    (h : k ≠ "stats.ci_kind" ∧ k ≠ "stats.ci_prob" ∧ k ≠ "plots.show_plot") :
    apply env s (.set k v) = (.error .keyError, s) := setItem_unknown env h

/-! ## C37 -/

/-- everything a program can do keeps the settings well formed -/
theorem exec_settled (p : Prog) {s : Store} (hs : Settled True s) :
    Settled True (exec env p s).2 := by
  have hupd : ∀ (l : List (String × PyVal)) {s : Store}, Settled True s →
      Settled True (updateItems env s l).2 := fun l s hs =>
    updateItems_ind env (Settled True) (fun s k w hs hw => settled_update hs hw) l s hs
  have hfile : ∀ (f : Option (List (List Char))) {s : Store}, Settled True s →
      Settled True (ctxFile env f s).2 := by
    intro f s hs
    cases f with
    | none => exact hs
    | some ls =>
      simp only [ctxFile]
      cases readFile env ls with
      | error e => exact hs
      | ok c => exact hupd _ hs
  have hinit : ∀ (a : CtxArgs) {s : Store}, Settled True s → Settled True (ctxInit env a s).2 := by
    intro a s hs
    have h1 := hfile a.file hs
    unfold ctxInit
    cases hf : ctxFile env a.file s with
    | mk r t =>
      rw [hf] at h1
      cases r with
      | error e => exact h1
      | ok u =>
        have h2 := hupd a.rc h1
        simp only
        cases hu : updateItems env t a.rc with
        | mk r' t' =>
          rw [hu] at h2
          cases r' <;> exact h2
  induction p generalizing s with
  | op o => exact settings_invariant_partial env hs [o]
  | raise e => exact hs
  | skip => exact hs
  | seq p q ihp ihq =>
    have h1 := ihp hs
    unfold exec
    cases hp : exec env p s with
    | mk r t =>
      rw [hp] at h1
      cases r with
      | error e => exact h1
      | ok u => exact ihq h1
  | tryCatch p q ihp ihq =>
    have h1 := ihp hs
    unfold exec
    cases hp : exec env p s with
    | mk r t =>
      rw [hp] at h1
      cases r with
      | error e => exact ihq h1
      | ok u => exact h1
  | withCtx a body ih =>
    have h1 := hinit a hs
    unfold exec
    cases hi : ctxInit env a s with
    | mk r t =>
      rw [hi] at h1
      cases r with
      | error e => exact h1
      | ok orig =>
        have h2 := ih h1
        simp only
        cases hb : exec env body t with
        | mk r' t' =>
          rw [hb] at h2
          simp only
          have h3 := hupd (items orig known) h2
          unfold ctxExit
          cases hx : updateItems env t' (items orig known) with
          | mk r'' t'' =>
            rw [hx] at h3
            cases r'' <;> exact h3

/-- Once an `rc_context` has started, leaving it - normally or through an exception, whatever the body
did, including further contexts - gives back exactly the settings of the moment it was created, and the
outcome of the body. -/
theorem context_restores {s s' : Store} {orig : Store} (hs : Settled True s) (a : CtxArgs) (body : Prog)
    (hstart : ctxInit env a s = (.ok orig, s')) :
    exec env (.withCtx a body) s = ((exec env body s').1, s) := by
  have horig : orig = s := by
    unfold ctxInit at hstart
    cases hf : ctxFile env a.file s with
    | mk r t =>
      rw [hf] at hstart
      cases r with
      | error e => simp at hstart
      | ok u =>
        simp only at hstart
        cases hu : updateItems env t a.rc with
        | mk r' t' => rw [hu] at hstart; cases r' <;> simp at hstart; exact hstart.1.symm
  subst horig
  have hbody : Settled True (exec env body s').2 := by
    have := exec_settled env (.withCtx a .skip) hs
    have hs' : Settled True s' := by
      have hupd : ∀ (l : List (String × PyVal)) {s : Store}, Settled True s →
          Settled True (updateItems env s l).2 := fun l s hs =>
        updateItems_ind env (Settled True) (fun s k w hs hw => settled_update hs hw) l s hs
      unfold ctxInit at hstart
      cases hf : ctxFile env a.file orig with
      | mk r t =>
        have ht : Settled True t := by
          unfold ctxFile at hf
          cases hfa : a.file with
          | none => simp [hfa] at hf; rw [← hf.2]; exact hs
          | some ls =>
            rw [hfa] at hf
            simp only at hf
            cases hr : readFile env ls with
            | error e => simp [hr] at hf; rw [← hf.2]; exact hs
            | ok c =>
              rw [hr] at hf
              simp only at hf
              have := hupd (items c sortedKeys) hs
              rw [hf] at this; exact this
        rw [hf] at hstart
        cases r with
        | error e => simp at hstart
        | ok u =>
          simp only at hstart
          have := hupd a.rc ht
          cases hu : updateItems env t a.rc with
          | mk r' t' =>
            rw [hu] at hstart this
            cases r' <;> simp at hstart
            rw [← hstart]; exact this
    exact exec_settled env body hs'
  have hexit : ∀ t, Settled True t → ctxExit env orig t = (.ok (), orig) := by
    intro t ht
    unfold ctxExit
    rw [updateItems_items env orig (settled_stable hs)]
    congr 1
    funext k
    by_cases hk : k ∈ known
    · rw [if_pos hk]
      obtain ⟨v, hv⟩ := (hs.keys k).2 (by simpa [known] using hk)
      simp [hv]
    · rw [if_neg hk]
      have h1 : ¬ ∃ v, t k = some v := fun h => hk (by simpa [known] using (ht.keys k).1 h)
      have h2 : ¬ ∃ v, orig k = some v := fun h => hk (by simpa [known] using (hs.keys k).1 h)
      rw [Option.eq_none_iff_forall_ne_some.2 fun v hv => h1 ⟨v, hv⟩,
        Option.eq_none_iff_forall_ne_some.2 fun v hv => h2 ⟨v, hv⟩]
  rw [exec, hstart]
  simp only
  rw [hexit _ hbody]

/-- a nest of contexts with assignments and an exception in the middle -/
example : exec exampleEnv (.withCtx ⟨[("stats.ci_prob", .num none)], none⟩
    (.seq (.withCtx ⟨[("plots.show_plot", .bool true)], none⟩ (.op (.set "stats.ci_kind" (.str "eti"))))
      (.raise .runtimeError))) exampleStore = (.error .runtimeError, exampleStore) := by
  have hp : Stable "stats.ci_prob" (.num none) := Or.inr (Or.inl ⟨rfl, Or.inl rfl⟩)
  have hb : Stable "plots.show_plot" (.bool true) := Or.inr (Or.inr ⟨rfl, true, rfl⟩)
  have hk : Stable "stats.ci_kind" (.str "eti") := Or.inl ⟨rfl, Or.inl rfl⟩
  have h0 := (settled_weaken exampleStore_settled)
  rw [context_restores exampleEnv h0 _ _ (s' := Function.update exampleStore "stats.ci_prob"
    (some (.num none))) (orig := exampleStore)
    (by simp [ctxInit, ctxFile, updateItems, setItem_stable exampleEnv _ hp])]
  rw [exec, context_restores exampleEnv (settled_update h0 hp) _ _ (s' := Function.update (Function.update
    exampleStore "stats.ci_prob" (some (.num none))) "plots.show_plot" (some (.bool true)))
    (orig := Function.update exampleStore "stats.ci_prob" (some (.num none)))
    (by simp [ctxInit, ctxFile, updateItems, setItem_stable exampleEnv _ hb])]
  simp only [exec, apply, setItem_stable exampleEnv _ hk]

/-- Inside, the settings are those passed, else those of the file, else the old ones (here for stored
values; `rc` in iteration order, later ones win). -/
theorem context_settings {s : Store} (ls : List (List Char)) (c : Store)
    (hc : readFile env ls = .ok c) (rc : List (String × PyVal)) (hrc : ∀ p ∈ rc, Stable p.1 p.2) :
    ∃ s', ctxInit env ⟨rc, some ls⟩ s = (.ok s, s') ∧
      ∀ k, (k ∉ rc.map Prod.fst → s' k = (c k).or (s k)) ∧
        (∀ pre v post, rc = pre ++ (k, v) :: post → k ∉ post.map Prod.fst → s' k = some v) := by
  have hst := readFile_stable env hc
  have hkeys : ∀ k v, c k = some v → k ∈ sortedKeys := by
    intro k v h
    rcases hst k v h with ⟨rfl, -⟩ | ⟨rfl, -⟩ | ⟨rfl, -⟩ <;> simp [sortedKeys]
  have h1 : ctxFile env (some ls) s = (.ok (), fun k => (c k).or (s k)) := by
    simp only [ctxFile, hc]
    rw [updateItems_items env c hst]
    congr 1
    funext k
    by_cases hk : k ∈ sortedKeys
    · rw [if_pos hk]
    · rw [if_neg hk, Option.eq_none_iff_forall_ne_some.2 fun v hv => hk (hkeys k v hv)]; rfl
  have hupd : ∀ (rc : List (String × PyVal)), (∀ p ∈ rc, Stable p.1 p.2) → ∀ t : Store,
      ∃ t', updateItems env t rc = (.ok (), t') ∧
      ∀ k, (k ∉ rc.map Prod.fst → t' k = t k) ∧
        (∀ pre v post, rc = pre ++ (k, v) :: post → k ∉ post.map Prod.fst → t' k = some v) := by
    intro rc
    induction rc with
    | nil => intro _ t; exact ⟨t, rfl, fun k => ⟨fun _ => rfl, by simp⟩⟩
    | cons x xs ih =>
      intro hx t
      obtain ⟨j, u⟩ := x
      obtain ⟨t', h2, h3⟩ := ih (fun p hp => hx p (by simp [hp])) (Function.update t j (some u))
      refine ⟨t', ?_, fun k => ⟨?_, ?_⟩⟩
      · rw [updateItems, setItem_stable env t (hx (j, u) (by simp))]; exact h2
      · intro hk
        simp only [List.map_cons, List.mem_cons, not_or] at hk
        rw [(h3 k).1 hk.2, Function.update_of_ne hk.1]
      · intro pre v post he hk
        cases pre with
        | nil =>
          simp only [List.nil_append, List.cons.injEq, Prod.mk.injEq] at he
          obtain ⟨⟨rfl, rfl⟩, rfl⟩ := he
          rw [(h3 j).1 hk]; simp
        | cons y ys =>
          simp only [List.cons_append, List.cons.injEq] at he
          exact (h3 k).2 ys v post he.2 hk
  obtain ⟨s', h2, h3⟩ := hupd rc hrc (fun k => (c k).or (s k))
  refine ⟨s', ?_, h3⟩
  simp only [ctxInit, h1, h2]

/-- Partial (starting failures): if the configuration file cannot be read, or the very first setting
passed is rejected and there is no file, nothing has changed. -/
theorem failed_start_unchanged_partial (s : Store) (a : CtxArgs) :
    (∀ ls e, a.file = some ls → readFile env ls = .error e →
      ctxInit env a s = (.error e, s)) ∧
    (∀ k v rest e, a.file = none → a.rc = (k, v) :: rest →
      (apply env s (.set k v)).1 = .error e → ctxInit env a s = (.error e, s)) := by
  constructor
  · intro ls e hf hr
    simp [ctxInit, ctxFile, hf, hr]
  · intro k v rest e hf hrc he
    rcases setItem_cases env s k v with ⟨e', h'⟩ | ⟨w, hw, h'⟩
    · simp only [apply, h'] at he
      injection he with he
      subst he
      simp [ctxInit, ctxFile, hf, hrc, updateItems, h']
    · simp [apply, h'] at he

/-- negation for other failing starts: the settings before the rejected one stay changed -/
theorem failed_start_leaks : ∃ s', ctxInit exampleEnv
      ⟨[("stats.ci_kind", .str "eti"), ("stats.ci_prob", .num (some 2))], none⟩ exampleStore =
      (.error .valueError, s') ∧
    exampleStore "stats.ci_kind" = some (.str "hdi") ∧ s' "stats.ci_kind" = some (.str "eti") := by
  have hk : Stable "stats.ci_kind" (.str "eti") := Or.inl ⟨rfl, Or.inl rfl⟩
  have h2 : (2 : EReal) > 1 := by exact_mod_cast (by norm_num : (2 : ℝ) > 1)
  refine ⟨Function.update exampleStore "stats.ci_kind" (some (.str "eti")), ?_, by simp [exampleStore],
    by simp⟩
  simp only [ctxInit, ctxFile, updateItems, setItem_stable exampleEnv _ hk, setItem_prob,
    validateProbability, toFloat, Except.ok_bind', h2, or_true, if_true, commit]

/-- the settings change when the context object is made, not when the `with` block is entered: without
a `with` they are never restored -/
theorem context_object_applies_at_once :
    (ctxInit exampleEnv ⟨[("stats.ci_kind", .str "eti")], none⟩ exampleStore).2 ≠ exampleStore := by
  have hk : Stable "stats.ci_kind" (.str "eti") := Or.inl ⟨rfl, Or.inl rfl⟩
  simp only [ctxInit, ctxFile, updateItems, setItem_stable exampleEnv _ hk]
  intro h
  have := congrFun h "stats.ci_kind"
  simp [exampleStore] at this

/-! ## C38 -/

private theorem fold_iff (lines : List (List Char)) (c0 c : Store) :
    lines.foldlM (readLine env) c0 = .ok c ↔
    ∃ es : List (Option (String × PyVal)), List.Forall₂ (LineMeans env) lines es ∧
      (es.reduceOption.map Prod.fst).Nodup ∧
      (∀ k ∈ es.reduceOption.map Prod.fst, c0 k = none) ∧
      ∀ k v, c k = some v ↔ (c0 k = some v ∨ (k, v) ∈ es.reduceOption) := by
  induction lines generalizing c0 with
  | nil =>
    simp only [List.foldlM_nil, Except.pure_eq]
    constructor
    · intro h; injection h with h; subst h
      exact ⟨[], .nil, by simp, by simp, by simp⟩
    · rintro ⟨es, h1, -, -, h4⟩
      cases h1
      congr 1
      funext k
      cases hc : c k with
      | none =>
        cases hc0 : c0 k with
        | none => rfl
        | some v => have := (h4 k v).2 (Or.inl hc0); rw [hc] at this; cases this
      | some v => have := (h4 k v).1 hc; simpa using this
  | cons x xs ih =>
    rw [List.foldlM_cons]
    rcases line_cases env x with hb | hm | ⟨kc, vc, he⟩
    · rw [readLine_blank env hb, Except.ok_bind', ih c0]
      constructor
      · rintro ⟨es, h1, h2, h3, h4⟩
        exact ⟨none :: es, .cons hb h1, by simpa using h2, by simpa using h3, by simpa using h4⟩
      · rintro ⟨es, h1, h2, h3, h4⟩
        cases h1 with
        | @cons _ y _ ys hy h1 =>
          cases y with
          | none => exact ⟨ys, h1, by simpa using h2, by simpa using h3, by simpa using h4⟩
          | some p =>
            exfalso
            obtain ⟨kc, vc, he, -⟩ := hy
            have := readLine_blank env (c := fun _ => some .none) hb
            rw [readLine_entry env he] at this
            simp at this
    · rw [readLine_malformed env hm]
      simp only [Except.error_bind', reduceCtorEq, false_iff]
      rintro ⟨es, h1, h2, h3, h4⟩
      cases h1 with
      | @cons _ y _ ys hy h1 =>
        have hmm := readLine_malformed env (c := fun _ => none) hm
        cases y with
        | none => rw [readLine_blank env hy] at hmm; cases hmm
        | some p =>
          obtain ⟨kc, vc, he, hk, hmean⟩ := hy
          rw [readLine_entry env he] at hmm
          rw [hk, ← setItem_text env (fun _ => none)] at hmean
          rw [hmean] at hmm
          simp [finish] at hmm
    · rw [readLine_entry env he]
      have huniq : ∀ p : String × PyVal, LineMeans env x (some p) →
          p.1 = String.ofList kc ∧ Means env (String.ofList kc) (String.ofList vc) p.2 := by
        rintro ⟨k, w⟩ ⟨kc', vc', he', hk', hm'⟩
        obtain ⟨a, b, h1, h2, h3, h4⟩ := he
        obtain ⟨a', b', h1', h2', h3', h4'⟩ := he'
        have hT := ((isText_iff _ _).1 h1).symm.trans ((isText_iff _ _).1 h1')
        have hsplit : ∀ {a b : List Char}, ':' ∉ a → (a ++ ':' :: b).takeWhile (· ≠ ':') = a ∧
            (a ++ ':' :: b).dropWhile (· ≠ ':') = ':' :: b := by
          intro a b ha
          have hall : ∀ c ∈ a, decide (c ≠ ':') = true := by
            intro c hc; simp; rintro rfl; exact ha hc
          exact ⟨by rw [List.takeWhile_append_of_pos hall]; simp,
            by rw [dropWhile_spaces hall]; simp [List.dropWhile_cons]⟩
        have ha : a = a' := by
          rw [← (hsplit (b := b) h2).1, hT, (hsplit h2').1]
        have hb : b = b' := by
          have : ':' :: b = ':' :: b' := by
            rw [← (hsplit (b := b) h2).2, hT, (hsplit h2').2]
          simpa using this
        subst ha hb
        have hk : kc = kc' := (strip_of_trim env h3).symm.trans (strip_of_trim env h3')
        have hv : vc = vc' := (strip_of_trim env h4).symm.trans (strip_of_trim env h4')
        subst hk hv
        exact ⟨hk', hk' ▸ hm'⟩
      by_cases hdup : (c0 (String.ofList kc)).isSome
      · rw [if_pos hdup]
        simp only [Except.error_bind', reduceCtorEq, false_iff]
        rintro ⟨es, h1, h2, h3, h4⟩
        cases h1 with
        | @cons _ y _ ys hy h1 =>
          cases y with
          | none =>
            have hh := readLine_blank env (c := fun _ => some .none) hy
            rw [readLine_entry env he] at hh
            simp at hh
          | some p =>
            have := h3 p.1 (by simp)
            rw [(huniq p hy).1] at this
            rw [this] at hdup; simp at hdup
      · rw [if_neg hdup]
        have hnone : c0 (String.ofList kc) = none := by simpa using hdup
        rcases setItem_cases env c0 (String.ofList kc) (.str (String.ofList vc)) with
          ⟨e, h'⟩ | ⟨w, hw, h'⟩
        · rw [h']
          simp only [finish, Except.error_bind', reduceCtorEq, false_iff]
          rintro ⟨es, h1, h2, h3, h4⟩
          cases h1 with
          | @cons _ y _ ys hy h1 =>
            cases y with
            | none =>
              have hh := readLine_blank env (c := fun _ => some .none) hy
              rw [readLine_entry env he] at hh
              simp at hh
            | some p =>
              have := (setItem_text env c0 _ _ _).2 (huniq p hy).2
              rw [h'] at this
              simp at this
        · rw [h']
          simp only [finish, Except.ok_bind']
          rw [ih]
          have hmean := (setItem_text env c0 _ _ _).1 h'
          constructor
          · rintro ⟨es, h1, h2, h3, h4⟩
            have hk : String.ofList kc ∉ es.reduceOption.map Prod.fst := by
              intro hk; have := h3 _ hk; simp at this
            refine ⟨some (String.ofList kc, w) :: es, .cons ⟨kc, vc, he, rfl, hmean⟩ h1, ?_, ?_, ?_⟩
            · simp only [List.reduceOption_cons_of_some, List.map_cons, List.nodup_cons]
              exact ⟨hk, h2⟩
            · intro k hk'
              simp only [List.reduceOption_cons_of_some, List.map_cons, List.mem_cons] at hk'
              rcases hk' with rfl | hk'
              · exact hnone
              · have := h3 k hk'
                have hne : k ≠ String.ofList kc := by rintro rfl; exact hk hk'
                rwa [Function.update_of_ne hne] at this
            · intro k v
              rw [h4]
              simp only [List.reduceOption_cons_of_some, List.mem_cons, Prod.mk.injEq]
              by_cases hkk : k = String.ofList kc
              · subst hkk
                simp only [Function.update_self, Option.some.injEq, hnone, true_and]
                simp [eq_comm]
              · simp [Function.update_of_ne hkk, hkk]
          · rintro ⟨es, h1, h2, h3, h4⟩
            cases h1 with
            | @cons _ y _ ys hy h1 =>
              cases y with
              | none =>
                have hh := readLine_blank env (c := fun _ => some .none) hy
                rw [readLine_entry env he] at hh
                simp at hh
              | some p =>
                obtain ⟨k, u⟩ := p
                obtain ⟨hp1, hp2⟩ := huniq _ hy
                simp only at hp1 hp2
                subst hp1
                have hwu : w = u := by
                  have := (setItem_text env c0 _ _ _).2 hp2
                  rw [h'] at this
                  have := congrFun (congrArg Prod.snd this) (String.ofList kc)
                  simpa using this
                subst hwu
                simp only [List.reduceOption_cons_of_some, List.map_cons, List.nodup_cons] at h2
                refine ⟨ys, h1, h2.2, ?_, ?_⟩
                · intro k hk
                  have hne : k ≠ String.ofList kc := by rintro rfl; exact h2.1 hk
                  rw [Function.update_of_ne hne]
                  exact h3 k (by simp only [List.reduceOption_cons_of_some, List.map_cons,
                    List.mem_cons]; exact Or.inr hk)
                · intro k v
                  rw [h4]
                  simp only [List.reduceOption_cons_of_some, List.mem_cons, Prod.mk.injEq]
                  by_cases hkk : k = String.ofList kc
                  · subst hkk
                    simp only [Function.update_self, Option.some.injEq, hnone, true_and]
                    simp [eq_comm]
                  · simp [Function.update_of_ne hkk, hkk]

/-- Partial: reading succeeds exactly for the files in which every line is blank, a comment or
`key: value` with a known key and a valid value, **no key occurring twice**, and then yields exactly the
values written.  Missing: duplicates and malformed lines are errors, see below. -/
theorem read_file_partial (lines : List (List Char)) (c : Store) :
    readFile env lines = .ok c ↔
    ∃ es : List (Option (String × PyVal)), List.Forall₂ (LineMeans env) lines es ∧
      (es.reduceOption.map Prod.fst).Nodup ∧
      ∀ k v, c k = some v ↔ (k, v) ∈ es.reduceOption := by
  unfold readFile
  rw [fold_iff env]
  simp

/-- a comment, a blank line and two entries -/
example : ∃ c, readFile exampleEnv ["# settings".toList, " \n".toList, "stats.ci_kind : HDI # x".toList,
    "stats.ci_prob:0.5\n".toList] = .ok c ∧ c "stats.ci_kind" = some (.str "hdi") ∧
    c "stats.ci_prob" = some (.num (some ((0.5 : ℝ) : EReal))) ∧ c "plots.show_plot" = none := by
  have hk : Means exampleEnv "stats.ci_kind" "HDI" (.str "hdi") := Or.inl ⟨rfl, by simp [exampleEnv]⟩
  have hp : Means exampleEnv "stats.ci_prob" "0.5" (.num (some ((0.5 : ℝ) : EReal))) :=
    Or.inr (Or.inl ⟨rfl, _, by simp [exampleEnv], rfl, by
      rintro r hr; injection hr with hr; subst hr
      exact ⟨by exact_mod_cast (by norm_num : (0:ℝ) ≤ 0.5), by exact_mod_cast (by norm_num : (0.5:ℝ) ≤ 1)⟩⟩)
  refine ⟨fun k => if k = "stats.ci_kind" then some (.str "hdi") else if k = "stats.ci_prob" then
    some (.num (some ((0.5 : ℝ) : EReal))) else none, ?_, by simp, by simp, by simp⟩
  rw [read_file_partial]
  refine ⟨[none, none, some ("stats.ci_kind", .str "hdi"), some ("stats.ci_prob", .num (some ((0.5 : ℝ) : EReal)))],
    .cons ?_ (.cons ?_ (.cons ?_ (.cons ?_ .nil))), by simp, ?_⟩
  · exact ⟨[], ⟨by simp, Or.inr ⟨" settings".toList, rfl⟩⟩, by simp⟩
  · exact ⟨" \n".toList, ⟨by simp, Or.inl rfl⟩, by simp [exampleEnv]⟩
  · refine ⟨"stats.ci_kind".toList, "HDI".toList, ⟨"stats.ci_kind ".toList, " HDI ".toList,
      ⟨by simp, Or.inr ⟨" x".toList, rfl⟩⟩, by simp, ⟨[], [' '], rfl, by simp, by simp [exampleEnv],
      by simp [exampleEnv], by simp [exampleEnv]⟩, ⟨[' '], [' '], rfl, by simp [exampleEnv],
      by simp [exampleEnv], by simp [exampleEnv], by simp [exampleEnv]⟩⟩, rfl, hk⟩
  · refine ⟨"stats.ci_prob".toList, "0.5".toList, ⟨"stats.ci_prob".toList, "0.5\n".toList,
      ⟨by simp, Or.inl rfl⟩, by simp, ⟨[], [], rfl, by simp, by simp [exampleEnv],
      by simp [exampleEnv], by simp [exampleEnv]⟩, ⟨[], ['\n'], rfl, by simp [exampleEnv],
      by simp [exampleEnv], by simp [exampleEnv], by simp [exampleEnv]⟩⟩, rfl, hp⟩
  · intro k v
    by_cases h1 : k = "stats.ci_kind"
    · subst h1; simp [eq_comm]
    · by_cases h2 : k = "stats.ci_prob"
      · subst h2; simp [eq_comm]
      · simp [h1, h2]

private theorem read_prefix (good rest : List (List Char)) (bad : List Char) (c : Store) (e : Err)
    (hg : readFile env good = .ok c) (hb : readLine env c bad = .error e) :
    readFile env (good ++ bad :: rest) = .error e := by
  unfold readFile at hg ⊢
  rw [List.foldlM_append, hg, Except.ok_bind', List.foldlM_cons, hb, Except.error_bind']

/-- negation of "malformed lines only cause a warning": the first malformed line stops the reading -/
theorem malformed_line_raises (good rest : List (List Char)) (bad : List Char) (c : Store)
    (hg : readFile env good = .ok c) (hb : Malformed env.isSpace bad) :
    readFile env (good ++ bad :: rest) = .error .typeError :=
  read_prefix env good rest bad c _ hg (readLine_malformed env hb)

example : Malformed exampleEnv.isSpace "stats.ci_kind hdi".toList :=
  ⟨"stats.ci_kind hdi".toList, ⟨by simp, Or.inl rfl⟩, by simp, 's', by simp, by simp [exampleEnv]⟩

/-- negation of "the last occurrence counts": a key occurring twice stops the reading -/
theorem duplicate_key_raises (good rest : List (List Char)) (line k v : List Char) (c : Store)
    (w : PyVal) (hg : readFile env good = .ok c) (he : Entry env.isSpace line k v)
    (hc : c (String.ofList k) = some w) :
    readFile env (good ++ line :: rest) = .error .typeError :=
  read_prefix env good rest line c _ hg (by rw [readLine_entry env he]; simp [hc])

/-- unknown keys and bad values are errors -/
theorem unknown_key_raises (good rest : List (List Char)) (line k v : List Char) (c : Store)
    (hg : readFile env good = .ok c) (he : Entry env.isSpace line k v)
    (hk : String.ofList k ≠ "stats.ci_kind" ∧ String.ofList k ≠ "stats.ci_prob" ∧
      String.ofList k ≠ "plots.show_plot") :
    readFile env (good ++ line :: rest) = .error .keyError := by
  refine read_prefix env good rest line c _ hg ?_
  rw [readLine_entry env he, if_neg, setItem_unknown env hk]
  · rfl
  · intro h
    obtain ⟨w, hw⟩ := Option.isSome_iff_exists.1 h
    have := readFile_stable env hg _ _ hw
    rcases this with ⟨h, -⟩ | ⟨h, -⟩ | ⟨h, -⟩
    · exact hk.1 h
    · exact hk.2.1 h
    · exact hk.2.2 h

theorem bad_value_raises (good rest : List (List Char)) (line k v : List Char) (c : Store)
    (hg : readFile env good = .ok c) (he : Entry env.isSpace line k v)
    (hk : String.ofList k = "stats.ci_kind" ∨ String.ofList k = "stats.ci_prob" ∨
      String.ofList k = "plots.show_plot") (hnew : c (String.ofList k) = none)
    (hv : ∀ w, ¬ Means env (String.ofList k) (String.ofList v) w) :
    readFile env (good ++ line :: rest) = .error .valueError := by
  refine read_prefix env good rest line c _ hg ?_
  rw [readLine_entry env he, if_neg (by simp [hnew])]
  rcases setItem_cases env c (String.ofList k) (.str (String.ofList v)) with ⟨e, h'⟩ | ⟨w, hw, h'⟩
  · rw [h']
    simp only [finish]
    congr 1
    rcases hk with hk | hk | hk <;> rw [hk] at h'
    · rw [setItem_kind] at h'
      simp only [validateKind] at h'
      split_ifs at h' <;> simp [commit] at h'
      exact h'.symm
    · rw [setItem_prob] at h'
      simp only [validateProbability, toFloat] at h'
      cases hp : env.parseFloat (String.ofList v) with
      | none => simp [hp, commit] at h'; exact h'.symm
      | some x =>
        rw [hp] at h'
        simp only [Except.ok_bind', Except.pure_eq] at h'
        cases x with
        | none => simp [commit] at h'
        | some r =>
          simp only at h'
          split_ifs at h' <;> simp [commit] at h'
          exact h'.symm
    · rw [setItem_plot] at h'
      simp only [validateBoolean] at h'
      split_ifs at h' <;> simp [commit] at h'
      exact h'.symm
  · exact absurd ((setItem_text env c _ _ _).1 h') (hv w)

/-- at import: the settings of the file, and the defaults for the others -/
theorem rc_params_from_file (ls : List (List Char)) (c d : Store) (hc : readFile env ls = .ok c)
    (hd : rcParamsInit env none = .ok d) :
    rcParamsInit env (some ls) = .ok fun k => (c k).or (d k) := by
  unfold rcParamsInit at hd ⊢
  cases h1 : finish (updateItems env (fun _ => none) defaults) with
  | error e => rw [h1] at hd; simp at hd
  | ok s =>
    rw [h1, Except.ok_bind'] at hd
    simp only [Except.pure_eq] at hd
    injection hd with hd
    subst hd
    rw [Except.ok_bind']
    simp only [hc, Except.ok_bind']
    have hst := readFile_stable env hc
    rw [updateItems_items env c hst]
    simp only [finish]
    congr 1
    funext k
    by_cases hk : k ∈ sortedKeys
    · rw [if_pos hk]
    · rw [if_neg hk]
      have : c k = none := Option.eq_none_iff_forall_ne_some.2 fun v hv => hk (by
        rcases hst k v hv with ⟨rfl, -⟩ | ⟨rfl, -⟩ | ⟨rfl, -⟩ <;> simp [sortedKeys])
      simp [this]

/-- the first existing file among the working directory, `$ARVIZ_DATA` and the user's configuration
directory is the one read -/
theorem rc_file_order (isFile : String → Bool) (cwd : String) (data xdg : Option String) (home : String)
    (linux : Bool) (join : String → String → String) (f : String) :
    findRcFile isFile (rcCandidates cwd data xdg home linux join) = some f ↔
      ∃ pre post, rcCandidates cwd data xdg home linux join = pre ++ f :: post ∧ isFile f = true ∧
        ∀ g ∈ pre, isFile g = false := by
  unfold findRcFile
  rw [List.find?_eq_some_iff_append]
  constructor
  · rintro ⟨h, a, b, h1, h2⟩; exact ⟨a, b, h1, h, fun g hg => by simpa using h2 g hg⟩
  · rintro ⟨a, b, h1, h, h2⟩; exact ⟨h, a, b, h1, fun g hg => by simpa using h2 g hg⟩

/-- the documented `$HOME/.config` default applies only without `XDG_CONFIG_HOME`; on other systems that
variable plays no role -/
theorem rc_candidates_cases (cwd home d x : String) (hd : d ≠ "") (join : String → String → String) :
    rcCandidates cwd (some d) (some x) home true join =
      [join cwd "prelizrc", join d "prelizrc", join (join x "preliz") "prelizrc"] ∧
    rcCandidates cwd none none home true join =
      [join cwd "prelizrc", join (join (join home ".config") "preliz") "prelizrc"] ∧
    rcCandidates cwd none (some x) home false join =
      [join cwd "prelizrc", join (join home ".preliz") "prelizrc"] := by
  simp [rcCandidates, hd]

end Verif.Props
