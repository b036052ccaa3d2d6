import Verif.Model.Posterior
import Mathlib.Tactic

/-!
# C93: which families are considered when samples are turned into priors
-/

namespace Verif.Props
open Verif Verif.Posterior

private theorem lookup_zip_lower (l : List (List Char)) (key : List Char) (h : (l.map lower).Nodup)
    (c : List Char) (hc : c ∈ l) (hk : lower c = key) :
    dictGet (l.map fun c => (lower c, c)) key = .ok c := by
  have : (l.map fun c => (lower c, c)).reverse.lookup key = some c := by
    rw [← List.map_reverse]
    have h' : (l.reverse.map lower).Nodup := by
      rw [List.map_reverse]; exact List.nodup_reverse.2 h
    have hc' : c ∈ l.reverse := List.mem_reverse.2 hc
    clear h hc
    generalize l.reverse = m at h' hc' ⊢
    induction m with
    | nil => simp at hc'
    | cons a t ih =>
      simp only [List.map_cons, List.nodup_cons] at h'
      simp only [List.map_cons, List.lookup_cons]
      rcases List.mem_cons.1 hc' with rfl | hm
      · simp [hk]
      · have : (key == lower a) = false := by
          rw [beq_eq_false_iff_ne]
          rintro rfl
          exact h'.1 (by rw [← hk]; exact List.mem_map.2 ⟨c, hm, rfl⟩)
        rw [this]
        exact ih h'.2 hm
  unfold dictGet
  rw [this]

private theorem dictGet_cases (l : List (List Char)) (key : List Char) :
    (∃ c ∈ l, lower c = key ∧ dictGet (l.map fun c => (lower c, c)) key = .ok c) ∨
      ((∀ c ∈ l, lower c ≠ key) ∧ dictGet (l.map fun c => (lower c, c)) key = .error .keyError) := by
  unfold dictGet
  cases h : (l.map fun c => (lower c, c)).reverse.lookup key with
  | none =>
    right
    refine ⟨fun c hc hk => ?_, rfl⟩
    have := List.lookup_eq_none_iff.1 h (lower c, c)
      (List.mem_reverse.2 (List.mem_map.2 ⟨c, hc, rfl⟩))
    simp [hk] at this
  | some c =>
    left
    rw [List.lookup_eq_some_iff] at h
    obtain ⟨l1, l2, h1, -⟩ := h
    have hm : (key, c) ∈ (l.map fun c => (lower c, c)).reverse := by rw [h1]; simp
    obtain ⟨d, hd, he⟩ := List.mem_map.1 (List.mem_reverse.1 hm)
    simp only [Prod.mk.injEq] at he
    exact ⟨c, he.2 ▸ hd, he.2 ▸ he.1, rfl⟩

/-- **C93**: every family is recognised, except the four modifiers. -/
theorem names_recognised (c : List Char) : c ∈ recognised ↔ c ∈ Explorer.distNames ∧
    c ∉ ["Truncated".toList, "Censored".toList, "Hurdle".toList, "Mixture".toList] := by
  simp [recognised]

/-- **C93**, negative: a model with a truncated, censored, hurdle or mixture prior cannot be read: KeyError. -/
theorem modifiers_not_recognised (m : List Char)
    (hm : m ∈ ["Truncated".toList, "Censored".toList, "Hurdle".toList, "Mixture".toList]) :
    m ∈ Explorer.distNames ∧ ∀ c ∈ recognised, lower c ≠ lower m := by
  have : ∀ m ∈ ["Truncated".toList, "Censored".toList, "Hurdle".toList, "Mixture".toList],
      m ∈ Explorer.distNames ∧ ∀ c ∈ recognised, lower c ≠ lower m := by decide +kernel
  exact this m hm

/-- **C93**: no two recognised families have names that differ only in capitals. -/
theorem names_unambiguous : (recognised.map lower).Nodup := by decide +kernel

/-- **C93**: the families of the free variables are found exactly when each one has the name of a
family; otherwise the call fails with a KeyError. -/
theorem extract_ok_iff (rvs : List RV) :
    ((∃ l, extract rvs = .ok l) ↔ ∀ r ∈ rvs, ∃ c ∈ recognised, lower c = r.distName) ∧
    ((¬ ∃ l, extract rvs = .ok l) → extract rvs = .error .keyError) := by
  unfold extract
  generalize recognised.length = n
  induction rvs generalizing n with
  | nil => simp [extractFrom]
  | cons r rs ih =>
    obtain ⟨ih1, ih2⟩ := ih (n + 1)
    unfold extractFrom
    rcases dictGet_cases recognised r.distName with ⟨c, hc, hk, he⟩ | ⟨hn, he⟩
    · rw [he]
      cases hr : extractFrom (n + 1) rs with
      | error e =>
        have hno : ¬ ∃ l, extractFrom (n + 1) rs = .ok l := by rw [hr]; simp
        have := ih2 hno
        rw [hr] at this
        cases this
        rw [ih1] at hno
        simp only [Except.ok_bind', Except.error_bind']
        refine ⟨?_, fun _ => trivial⟩
        simp only [reduceCtorEq, exists_false, false_iff]
        exact fun h => hno fun s hs => h s (by simp [hs])
      | ok l =>
        have hyes := ih1.1 ⟨l, hr⟩
        simp only [Except.ok_bind', Except.pure_eq]
        refine ⟨⟨fun _ s hs => ?_, fun _ => ⟨_, rfl⟩⟩, fun h => absurd ⟨_, rfl⟩ h⟩
        rcases List.mem_cons.1 hs with rfl | hs
        · exact ⟨c, hc, hk⟩
        · exact hyes s hs
    · rw [he]
      simp only [Except.error_bind']
      refine ⟨?_, fun _ => trivial⟩
      simp only [reduceCtorEq, exists_false, false_iff]
      intro h
      obtain ⟨c, hc, hk⟩ := h r (by simp)
      exact hn c hc hk

/-- what is found: one entry per variable, in order, of the class with the variable's name, never a
modifier -/
def Found (rvs : List RV) (l : List (String × Obj)) : Prop :=
  List.Forall₂ (fun r e => e.1 = r.name ∧ e.2.cls ∈ recognised ∧ lower e.2.cls = r.distName) rvs l

/-- **C93**: every variable gets an object of its own, of the family its distribution is named
after. -/
theorem extract_found (rvs : List RV) (l : List (String × Obj)) (h : extract rvs = .ok l) :
    Found rvs l ∧ (l.map fun e => e.2.id).Nodup := by
  unfold extract at h
  generalize recognised.length = n at h
  suffices Found rvs l ∧ l.map (fun e => e.2.id) = List.range' n l.length by
    refine ⟨this.1, ?_⟩
    rw [this.2]
    exact List.nodup_range'
  induction rvs generalizing n l with
  | nil =>
    cases h
    exact ⟨List.Forall₂.nil, rfl⟩
  | cons r rs ih =>
    unfold extractFrom at h
    rcases dictGet_cases recognised r.distName with ⟨c, hc, hk, he⟩ | ⟨hn, he⟩
    · rw [he] at h
      cases hr : extractFrom (n + 1) rs with
      | error e => rw [hr] at h; cases h
      | ok l' =>
        rw [hr] at h
        cases h
        obtain ⟨h1, h2⟩ := ih l' (n + 1) hr
        refine ⟨List.Forall₂.cons ⟨rfl, hc, hk⟩ h1, ?_⟩
        simp [h2, List.range'_succ]
    · rw [he] at h; cases h

/-- the text has no "RV" inside -/
def noRV : List Char → Bool
  | 'R' :: 'V' :: _ => false
  | _ :: cs => noRV cs
  | [] => true

private theorem beforeRV_append (c rest : List Char) (h : noRV c = true) :
    beforeRV (c ++ 'R' :: 'V' :: rest) = c := by
  induction c with
  | nil => simp [beforeRV]
  | cons a t ih =>
    have ht : noRV t = true := by
      unfold noRV at h
      split at h <;> simp_all
    have := ih ht
    rw [List.cons_append]
    unfold beforeRV
    split
    · rename_i heq
      exfalso
      simp only [List.cons.injEq] at heq
      obtain ⟨rfl, heq⟩ := heq
      cases t with
      | nil => simp at heq
      | cons b t =>
        simp only [List.cons_append, List.cons.injEq] at heq
        obtain ⟨rfl, -⟩ := heq
        simp [noRV] at h
    · rename_i heq
      simp only [List.cons.injEq] at heq
      obtain ⟨rfl, rfl⟩ := heq
      rw [this]
    · rename_i heq
      simp at heq

/-- **C93**: a variable whose operation prints as the name of a family followed by "RV" is given
that family. -/
theorem text_recognised (c : List Char) (hc : c ∈ recognised) (name : String) (rest : List Char) :
    ∃ id, extract [⟨name, "", c ++ 'R' :: 'V' :: rest⟩] = .ok [(name, ⟨c, id⟩)] := by
  have hno : noRV c = true := by
    have : ∀ c ∈ recognised, noRV c = true := by decide +kernel
    exact this c hc
  refine ⟨recognised.length, ?_⟩
  unfold extract extractFrom
  have hd : (RV.distName ⟨name, "", c ++ 'R' :: 'V' :: rest⟩) = lower c := by
    simp [RV.distName, beforeRV_append c rest hno]
  rw [hd, lookup_zip_lower recognised (lower c) names_unambiguous c hc rfl]
  simp [extractFrom]

/-! ## Candidates -/

/-- **C93**: the family of the prior is always the first candidate, and only instances are
candidates for `posterior_to_prior`. -/
theorem candidates_first (f : Families) (var : String) (dist : Obj) (n : ℕ) :
    (candidates f var dist n).head? = some (.inst dist) ∧
      ∀ c ∈ candidates f var dist n, ∃ o, c = .inst o := by
  cases f with
  | none => simp [candidates]
  | auto =>
    refine ⟨rfl, fun c hc => ?_⟩
    rcases List.mem_cons.1 hc with rfl | hc
    · exact ⟨_, rfl⟩
    · obtain ⟨o, -, rfl⟩ := List.mem_map.1 hc
      exact ⟨o, rfl⟩
  | list l =>
    refine ⟨rfl, fun c hc => ?_⟩
    rcases List.mem_cons.1 hc with rfl | hc
    · exact ⟨_, rfl⟩
    · obtain ⟨o, -, rfl⟩ := List.mem_map.1 hc
      exact ⟨o, rfl⟩
  | dict d =>
    refine ⟨rfl, fun c hc => ?_⟩
    rcases List.mem_cons.1 hc with rfl | hc
    · exact ⟨_, rfl⟩
    · obtain ⟨o, -, rfl⟩ := List.mem_map.1 hc
      exact ⟨o, rfl⟩

/-- **C93**: with "auto" the candidates are the family of the prior and Normal, HalfNormal and
Gamma, each family once. -/
theorem candidates_auto (var : String) (dist : Obj) (n : ℕ) :
    ((candidates .auto var dist n).map Cand.className).Nodup ∧
    ∀ c, c ∈ (candidates .auto var dist n).map Cand.className ↔
      c = dist.cls ∨ c = "Normal".toList ∨ c = "HalfNormal".toList ∨ c = "Gamma".toList := by
  have hcls : (candidates .auto var dist n).map Cand.className =
      dist.cls :: ["Normal".toList, "HalfNormal".toList, "Gamma".toList].filter
        fun a => dist.cls ≠ a := by
    have e : ["Normal".toList, "HalfNormal".toList, "Gamma".toList] =
        List.map Posterior.Obj.cls [⟨"Normal".toList, n⟩, ⟨"HalfNormal".toList, n + 1⟩,
          ⟨"Gamma".toList, n + 2⟩] := rfl
    rw [e, List.filter_map]
    unfold candidates
    rw [List.map_cons, List.map_map]
    rfl
  rw [hcls]
  refine ⟨?_, fun c => ?_⟩
  · rw [List.nodup_cons]
    refine ⟨by simp [List.mem_filter], List.Nodup.filter _ (by decide)⟩
  · simp only [List.mem_cons, List.mem_filter, List.not_mem_nil, or_false, decide_eq_true_eq]
    constructor
    · rintro (h | ⟨h, -⟩)
      · exact .inl h
      · exact .inr h
    · rintro (h | h)
      · exact .inl h
      · by_cases hd : dist.cls = c
        · exact .inl hd.symm
        · exact .inr ⟨h, hd⟩

/-- **C93**: alternatives given per variable are used for that variable only; the others keep the
family of their prior. -/
theorem candidates_scoped (d d' : List (String × List Obj)) (var : String) (dist : Obj) (n : ℕ) :
    (entry d var = entry d' var → candidates (.dict d) var dist n = candidates (.dict d') var dist n) ∧
    ((∀ e ∈ d, e.1 ≠ var) → candidates (.dict d) var dist n = [.inst dist]) ∧
    (∀ alts, entry d var = alts → candidates (.dict d) var dist n = candidates (.list alts) var dist n) := by
  refine ⟨fun h => by simp [candidates, h], fun h => ?_, fun alts h => by simp [candidates, h]⟩
  have : d.reverse.lookup var = none := by
    rw [List.lookup_eq_none_iff]
    intro e he
    have := h e (List.mem_reverse.1 he)
    simp [bne_iff_ne, this.symm]
  simp [candidates, entry, this]

/-- **C93**: without "auto", `ppe` considers the same candidates as `posterior_to_prior`. -/
theorem families_agree_partial (f : Families) (hf : f ≠ .auto) (var : String) (dist : Obj) (n : ℕ) :
    setFamilies f var dist = candidates f var dist n := by
  cases f <;> first | rfl | exact absurd rfl hf

/-- **C93**, negative: with "auto" `ppe` cannot fit any scalar variable, because it offers the
classes themselves: a TypeError unless fitting the prior's own family already failed. -/
theorem ppe_auto_fails (fits : Obj → Except Err Unit) (var : String) (dist : Obj)
    (h : dist.cls ∈ recognised) (hc : dist.cls ≠ "Categorical".toList) :
    fitLoop fits (setFamilies .auto var dist) =
      match fits dist with
      | .ok _ => .error .typeError
      | .error e => .error e := by
  have ht : dist.cls ≠ "type".toList := by
    have : ∀ c ∈ recognised, c ≠ "type".toList := by decide +kernel
    exact this _ h
  have hs : setFamilies .auto var dist = [.inst dist, .cls "Normal".toList,
      .cls "HalfNormal".toList, .cls "Gamma".toList] := by
    simp only [setFamilies, List.filter_cons, Cand.className, List.filter_nil]
    simp only [ne_eq, ht, not_false_eq_true, decide_true, if_true]
  rw [hs]
  unfold fitLoop
  rw [if_neg]
  · cases hf : fits dist with
    | ok _ => simp [hf]
    | error e => simp [hf]
  · simp only [List.any_cons, List.any_nil, Cand.className, Bool.or_false, Bool.or_eq_true, not_or]
    exact ⟨fun h => hc (of_decide_eq_true h), by decide, by decide, by decide⟩

/-- **C93**: `posterior_to_prior` with the same argument fits all the candidates. -/
theorem p2p_auto_fits (fits : Obj → Except Err Unit) (hfit : ∀ o, fits o = .ok ()) (var : String)
    (dist : Obj) (n : ℕ) (hc : dist.cls ≠ "Categorical".toList) :
    ∃ l, fitLoop fits (candidates .auto var dist n) = .ok l ∧
      l.map Cand.inst = candidates .auto var dist n := by
  have hinst := (candidates_first .auto var dist n).2
  have hcat : ¬ (candidates .auto var dist n).any (fun c => c.className = "Categorical".toList) := by
    simp only [List.any_eq_true, decide_eq_true_eq, not_exists, not_and]
    intro c hm he
    have := ((candidates_auto var dist n).2 c.className).1 (List.mem_map.2 ⟨c, hm, rfl⟩)
    rw [he] at this
    rcases this with h | h | h | h
    · exact hc h.symm
    all_goals exact absurd h (by decide)
  unfold fitLoop
  rw [if_neg hcat]
  generalize candidates .auto var dist n = cs at hinst
  induction cs with
  | nil => exact ⟨[], rfl, rfl⟩
  | cons c cs ih =>
    obtain ⟨o, rfl⟩ := hinst c (by simp)
    obtain ⟨l, h1, h2⟩ := ih fun c hc => hinst c (by simp [hc])
    refine ⟨o :: l, ?_, by simp [h2]⟩
    rw [List.mapM_cons, h1]
    simp [hfit]

/-! ## Engines -/

/-- **C93**: a model made with one of the two libraries is recognised and answered in the text of
that library; one that looks like both counts as a PyMC model. -/
theorem engine_recognised (fit : List (String × Obj) → Except Err (List (String × Obj)))
    (rvs : List RV) (l new : List (String × Obj)) (hl : extract rvs = .ok l) (hn : fit l = .ok new) :
    (∀ f b, posteriorToPrior fit "auto" ⟨true, f, some rvs, b⟩ = .ok ("pymc", new)) ∧
    posteriorToPrior fit "auto" ⟨false, true, none, some rvs⟩ = .ok ("bambi", new) ∧
    posteriorToPrior fit "pymc" ⟨true, false, some rvs, none⟩ = .ok ("pymc", new) ∧
    posteriorToPrior fit "bambi" ⟨false, true, none, some rvs⟩ = .ok ("bambi", new) := by
  refine ⟨fun f b => ?_, ?_, ?_, ?_⟩ <;>
    simp [posteriorToPrior, getEngine, hl, hn]

/-- **C93**: with the wrong library the call fails before anything is fitted. -/
theorem engine_mismatch (fit : List (String × Obj) → Except Err (List (String × Obj)))
    (rvs : List RV) (b f : Bool) :
    posteriorToPrior fit "bambi" ⟨b, f, some rvs, none⟩ = .error .attributeError ∧
    posteriorToPrior fit "pymc" ⟨b, f, none, some rvs⟩ = .error .attributeError := by
  constructor <;> simp [posteriorToPrior]

/-- **C93**, negative: another name for the engine is not refused; everything is fitted first, and
then the call fails with a NameError. -/
theorem engine_unchecked (fit : List (String × Obj) → Except Err (List (String × Obj)))
    (rvs : List RV) (l new : List (String × Obj)) (hl : extract rvs = .ok l) (b f : Bool)
    (engine : String) (h1 : engine ≠ "auto") (h2 : engine ≠ "bambi") (h3 : engine ≠ "pymc") :
    posteriorToPrior fit engine ⟨b, f, some rvs, none⟩ =
      match fit l with
      | .ok _ => .error .nameError
      | .error e => .error e := by
  cases hf : fit l <;> simp [posteriorToPrior, h1, h2, h3, hl, hf]

/-! ### Examples -/

/-- a model with a Normal and a HalfNormal, named by their operations -/
example : ∃ l, extract [⟨"a", "normal", []⟩, ⟨"b", "", "HalfNormalRV{0}".toList⟩] = .ok l ∧
    l.map (fun e => (e.1, e.2.cls)) = [("a", "Normal".toList), ("b", "HalfNormal".toList)] :=
  ⟨_, rfl, by decide⟩

/-- an operation with another name -/
example : extract [⟨"a", "t", []⟩] = .error .keyError := by
  refine (extract_ok_iff _).2 ?_
  rw [(extract_ok_iff _).1]
  decide +kernel

example : (candidates .auto "b" ⟨"HalfNormal".toList, 3⟩ 50).map Cand.className =
    ["HalfNormal".toList, "Normal".toList, "Gamma".toList] := by decide

example : fitLoop (fun _ => .ok ()) (setFamilies .auto "a" ⟨"Normal".toList, 7⟩) = .error .typeError :=
  ppe_auto_fails _ _ _ (by decide +kernel) (by decide)

example : posteriorToPrior (fun l => .ok l) "PyMC" ⟨true, false, some [], none⟩ = .error .nameError :=
  engine_unchecked _ [] [] [] rfl _ _ _ (by decide) (by decide) (by decide)

end Verif.Props
