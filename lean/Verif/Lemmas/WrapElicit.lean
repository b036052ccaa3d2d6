import Verif.Model.WrapElicit
import Verif.Spec.WrapElicit
import Verif.Lemmas.Boxes
import Mathlib.Tactic

/-!
# Lemmas for the elicitation of Truncated, Censored and Hurdle
-/

namespace Verif.Lemmas.WrapElicit
open Verif Verif.Param Verif.Wrapper Verif.Optim Verif.WrapElicit Verif.Spec

/-- a complete call under one documented parametrisation leaves the object with these names -/
theorem names_after (f : Family) (names : List String) (hn : names ∈ (Spec.ways f).map Spec.Way.allowed)
    (vals : List ℝ) (hl : vals.length = names.length) (o o' : Obj)
    (h : parametrize f (kwCall (names.zip vals)) o = .ok o') : o'.names = names := by
  have h4 : ∀ {l : List ℝ}, l.length = 4 → ∃ a b c d, l = [a, b, c, d] := by
    intro l h
    match l, h with
    | [a, b, c, d], _ => exact ⟨a, b, c, d, rfl⟩
  cases f with
  | simple s =>
    cases s
    all_goals
      simp only [Spec.ways, List.map_cons, List.map_nil, List.mem_cons, List.not_mem_nil, or_false, Spec.Way.plain] at hn
      subst hn
      simp only [List.length_cons, List.length_nil] at hl
      first
      | (obtain ⟨a, rfl⟩ := List.length_eq_one_iff.mp hl)
      | (obtain ⟨a, b, rfl⟩ := List.length_eq_two.mp hl)
      | (obtain ⟨a, b, c, rfl⟩ := List.length_eq_three.mp hl)
      | (obtain ⟨a, b, c, d, rfl⟩ := h4 hl)
      simp [parametrize, simpleParam, simpleFam, kwCall, List.lookup, allNotNone, simpleUpdate] at h
      subst h
      rfl
  | _ =>
    simp only [Spec.ways, List.map_cons, List.map_nil, List.mem_cons, List.not_mem_nil, or_false, Spec.Way.plain] at hn
    rcases hn with rfl | rfl | rfl
    all_goals
      simp only [List.length_cons, List.length_nil] at hl
      first
      | (obtain ⟨a, rfl⟩ := List.length_eq_one_iff.mp hl)
      | (obtain ⟨a, b, rfl⟩ := List.length_eq_two.mp hl)
      | (obtain ⟨a, b, c, rfl⟩ := List.length_eq_three.mp hl)
      | (obtain ⟨a, b, c, d, rfl⟩ := h4 hl)
      simp [parametrize, asymLaplaceParam, bernoulliParam, betaParam, betaScaledParam, exponentialParam, gammaLikeParam,
        halfNormalParam, halfStudentTParam, kumaraswamyParam, normalParam, nbParam, riceParam, skewNormalParam,
        skewStudentTParam, studentTParam, waldParam, zinbParam, kwCall, List.lookup, allNotNone, anyNotNone, bind,
        Except.bind] at h
      repeat' (split at h)
      all_goals try (simp at h)
      all_goals try (subst h)
      all_goals first | rfl | (exfalso; by_cases h0 : a = 0 <;> simp_all [pyAnd])

/-- the names of a documented parametrisation are constructor arguments -/
theorem way_args (f : Family) (names : List String) (hn : names ∈ (Spec.ways f).map Spec.Way.allowed) (n : String)
    (h : n ∈ names) : n ∈ Spec.args f := by
  obtain ⟨w, hw, rfl⟩ := List.mem_map.1 hn
  exact List.mem_flatMap.2 ⟨w, hw, h⟩

theorem way_ne_nil (f : Family) (names : List String) (hn : names ∈ (Spec.ways f).map Spec.Way.allowed) :
    names ≠ [] := by
  rintro rfl
  cases f with
  | simple s => cases s <;> simp [Spec.ways, Spec.Way.plain] at hn
  | _ => simp [Spec.ways, Spec.Way.plain] at hn

theorem split_eq {V : Type} (a : String → Option V) (l : List String) (i : ℕ) (acc : List ℕ × List V) :
    (l.zipIdx i).foldl (splitStep a) acc =
      (acc.1 ++ ((l.zipIdx i).filter fun ni => (a ni.1).isNone).map Prod.snd, acc.2 ++ l.filterMap a) := by
  induction l generalizing i acc with
  | nil => simp
  | cons n l ih =>
    rw [List.zipIdx_cons, List.foldl_cons, ih]
    cases h : a n <;> simp [splitStep, h]

/-- `get_params` after `get_fixed_params` fills the holes -/
theorem getParamsFrom_fill {V : Type} (a : String → Option V) (N : List ℕ) (l : List String) (i : ℕ) (x : List V)
    (hN : ∀ ni ∈ l.zipIdx i, N.contains ni.2 = (a ni.1).isNone) :
    getParamsFrom l i N x (l.filterMap a)
      = match fill (l.map a) x with
        | some ps => .ok (l.zip ps)
        | none => .error .indexError := by
  induction l generalizing i x with
  | nil => simp [getParamsFrom, fill]
  | cons n l ih =>
    have h0 := hN (n, i) (by simp)
    have hN' : ∀ ni ∈ l.zipIdx (i + 1), N.contains ni.2 = (a ni.1).isNone :=
      fun ni h => hN ni (by simp [h])
    simp only at h0
    unfold getParamsFrom
    rw [h0]
    cases h : a n with
    | none =>
      simp only [Option.isNone_none, if_true, List.map_cons, h]
      cases x with
      | nil => simp [fill]
      | cons v x =>
        simp only [fill, List.filterMap_cons, h]
        rw [ih _ _ hN']
        cases fill (l.map a) x <;> simp [Except.map]
    | some v =>
      simp only [Option.isNone_some, Bool.false_eq_true, if_false, List.map_cons, h, List.filterMap_cons, fill]
      rw [ih _ _ hN']
      cases fill (l.map a) x <;> simp [Except.map]

/-- the positions of the holes -/
theorem split_contains {V : Type} (a : String → Option V) (l : List String) (ni : String × ℕ) (h : ni ∈ l.zipIdx 0) :
    (((l.zipIdx 0).filter fun ni => (a ni.1).isNone).map Prod.snd).contains ni.2 = (a ni.1).isNone := by
  rw [Bool.eq_iff_iff, List.contains_iff_mem, List.mem_map]
  constructor
  · rintro ⟨mi, hmi, he⟩
    obtain ⟨hm1, hm2⟩ := List.mem_filter.mp hmi
    have a := List.mem_zipIdx_iff_getElem?.mp h
    have b := List.mem_zipIdx_iff_getElem?.mp hm1
    rw [he, a] at b
    rw [Option.some.inj b]
    exact hm2
  · intro h1
    exact ⟨ni, List.mem_filter.mpr ⟨h, h1⟩, rfl⟩

theorem fill_length {V : Type} (g : List (Option V)) (x ps : List V) (h : fill g x = some ps) :
    ps.length = g.length := by
  induction g generalizing x ps with
  | nil => simp [fill] at h; simp [← h]
  | cons v g ih =>
    cases v with
    | some v =>
      simp only [fill, Option.map_eq_some_iff] at h
      obtain ⟨q, hq, rfl⟩ := h
      simp [ih _ _ hq]
    | none =>
      cases x with
      | nil => simp [fill] at h
      | cons v x =>
        simp only [fill, Option.map_eq_some_iff] at h
        obtain ⟨q, hq, rfl⟩ := h
        simp [ih _ _ hq]

theorem setAttrs_of_not_mem (kvs : List (String × Option EReal)) (a : String → Option (Option EReal)) (n : String)
    (h : n ∉ kvs.map Prod.fst) : setAttrs a kvs n = a n := by
  induction kvs generalizing a with
  | nil => rfl
  | cons p kvs ih =>
    simp only [List.map_cons, List.mem_cons, not_or] at h
    have : setAttrs a (p :: kvs) = setAttrs (Function.update a p.1 (some p.2)) kvs := rfl
    rw [this, ih _ h.2, Function.update_of_ne h.1]

/-- attributes after setting distinct names -/
theorem setAttrs_map (names : List String) (hd : names.Nodup) (vals : List (Option EReal))
    (hl : vals.length = names.length) (a : String → Option (Option EReal)) :
    names.map (setAttrs a (names.zip vals)) = vals.map some := by
  induction names generalizing a vals with
  | nil => cases vals with
    | nil => rfl
    | cons v vals => simp at hl
  | cons n names ih =>
    cases vals with
    | nil => simp at hl
    | cons v vals =>
      rw [List.nodup_cons] at hd
      have e : setAttrs a ((n :: names).zip (v :: vals)) = setAttrs (Function.update a n (some v)) (names.zip vals) := rfl
      rw [e, List.map_cons, List.map_cons, ih hd.2 vals (by simpa using hl), setAttrs_of_not_mem]
      · simp
      · intro hc
        obtain ⟨p, hp, h1⟩ := List.mem_map.1 hc
        exact hd.1 (h1 ▸ (List.of_mem_zip hp).1)

theorem lookup_getD_some (names : List String) (ps : List ℝ) :
    (fun n => ((names.zip (ps.map some)).lookup n).getD none) = kwCall (names.zip ps) := by
  funext n
  unfold kwCall
  induction names generalizing ps with
  | nil => simp
  | cons m names ih =>
    cases ps with
    | nil => simp
    | cons p ps =>
      simp only [List.map_cons, List.zip_cons_cons, List.lookup_cons]
      cases h : n == m
      · simpa using ih ps
      · simp

/-- a complete call of `_parametrization` on a modifier -/
theorem param_full (k : Kind) (f : Family) (supp : Obj → EReal × EReal) (own : String → Option EReal)
    (names : List String) (hn : names ∈ (Spec.ways f).map Spec.Way.allowed) (ps : List ℝ)
    (hl : ps.length = names.length) (w w' : WObj) (hb : w.base.names = names)
    (h : param k f supp own (names.zip (ps.map some)) w = .ok w') :
    w'.names = names ++ ownKeys k ∧ w'.base.names = names ∧ w'.frozen = true ∧
      w'.params = ps.map (fun r : ℝ => some (r : EReal)) ++ (ownArgs k own).map Prod.snd ∧
      parametrize f (kwCall (names.zip ps)) w.base = .ok w'.base := by
  have hne := way_ne_nil f names hn
  have hkw : kwargsOf w.base (names.zip (ps.map some)) = names.zip (ps.map some) := by
    unfold kwargsOf
    rw [if_neg]
    cases names with
    | nil => exact absurd rfl hne
    | cons a names => cases ps with
      | nil => simp at hl
      | cons p ps => simp
  have hsnd : (names.zip (ps.map some)).map Prod.snd = ps.map some := List.map_snd_zip (by simp [hl])
  unfold param at h
  simp only [hkw, hsnd] at h
  rw [if_pos (by simp [allNotNone])] at h
  split_ifs at h with hk
  obtain ⟨b, hb', h⟩ := Verif.Support.bind_ok h
  rw [lookup_getD_some] at hb'
  simp only [Except.pure_eq, Except.ok.injEq] at h
  subst h
  refine ⟨?_, names_after f names hn ps hl _ _ hb', rfl, ?_, hb'⟩
  · simp only [hb]
    cases k <;> rfl
  · simp only [List.map_map]
    rfl

theorem way_nodup (f : Family) (names : List String) (hn : names ∈ (Spec.ways f).map Spec.Way.allowed) :
    names.Nodup := by
  cases f with
  | simple s =>
    cases s
    all_goals
      simp only [Spec.ways, List.map_cons, List.map_nil, List.mem_cons, List.not_mem_nil, or_false, Spec.Way.plain] at hn
      subst hn
      decide
  | _ =>
    simp only [Spec.ways, List.map_cons, List.map_nil, List.mem_cons, List.not_mem_nil, or_false, Spec.Way.plain] at hn
    rcases hn with rfl | rfl | rfl
    all_goals decide

/-- holes among real numbers, followed by values that are given -/
theorem fill_wide (vals : List (Option ℝ)) (kept : List EReal) (x : List ℝ) :
    fill (vals.map wide ++ kept.map some) (x.map fun r : ℝ => (r : EReal))
      = (fill vals x).map fun ps => ps.map (fun r : ℝ => (r : EReal)) ++ kept := by
  induction vals generalizing x with
  | nil =>
    have : ∀ y : List EReal, fill (kept.map some) y = some kept := by
      intro y
      induction kept with
      | nil => simp [fill]
      | cons v kept ih => simp [fill, ih]
    simp [fill, this]
  | cons v vals ih =>
    cases v with
    | some v =>
      simp only [List.map_cons, wide, Option.map_some, List.cons_append, fill]
      rw [ih]
      cases fill vals x <;> simp
    | none =>
      cases x with
      | nil => simp [wide, fill]
      | cons y x =>
        simp only [List.map_cons, wide, Option.map_none, List.cons_append, fill]
        rw [ih]
        cases fill vals x <;> simp

end Verif.Lemmas.WrapElicit
