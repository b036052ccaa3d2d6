import Verif.Spec.NumFit
import Verif.Lemmas.NumFit
import Verif.Props.FixedParams

/-!
# C74: fits by a numerical optimiser
-/

namespace Verif.Props
open Verif Verif.Param Verif.Optim Verif.NumFit Verif.Spec

/-- the names a BetaScaled always has -/
def ScaledNames (f : Family) (names : List String) : Prop :=
  f = .betaScaled → names = ["alpha", "beta", "lower", "upper"]

private theorem scaled_kvs (kvs : List (String × ℝ))
    (h : kvs.map Prod.fst = ["alpha", "beta", "lower", "upper"]) :
    ∃ a b l u, kvs = [("alpha", a), ("beta", b), ("lower", l), ("upper", u)] := by
  match kvs, h with
  | [(k1, a), (k2, b), (k3, c), (k4, d)], h =>
    simp only [List.map_cons, List.map_nil, List.cons.injEq, and_true] at h
    obtain ⟨rfl, rfl, rfl, rfl⟩ := h
    exact ⟨a, b, c, d, rfl⟩

/-- a complete set of arguments gives the same law whatever the object was before -/
private theorem complete_agree (f : Family) (kvs : List (String × ℝ))
    (hs : ScaledNames f (kvs.map Prod.fst)) (o o' : Obj) :
    Agree f (parametrize f (kwCall kvs) o) (parametrize f (kwCall kvs) o') := by
  by_cases hf : f = .betaScaled
  · subst hf
    obtain ⟨a, b, l, u, rfl⟩ := scaled_kvs kvs (hs rfl)
    simp [parametrize, betaScaledParam, kwCall, List.lookup, betaScaledUpdate, Agree, law, lawAttrs,
      Obj.setAll, Obj.set, Function.update]
  · exact param_agree f hf _ _ _

theorem construct_agree (f : Family) (kvs : List (String × ℝ))
    (hs : ScaledNames f (kvs.map Prod.fst)) (o : Obj) :
    Agree f (parametrize f (kwCall kvs) o) (construct f (kwCall kvs)) := by
  by_cases hf : f = .betaScaled
  · subst hf
    obtain ⟨a, b, l, u, rfl⟩ := scaled_kvs kvs (hs rfl)
    simp [construct, parametrize, betaScaledParam, kwCall, List.lookup, betaScaledUpdate, Agree, law, lawAttrs,
      Obj.setAll, Obj.set, Function.update]
  · have : construct f (kwCall kvs) = parametrize f (kwCall kvs) blank := by
      cases f <;> first | rfl | exact absurd rfl hf
    rw [this]
    exact param_agree f hf _ _ _

theorem getParamsFrom_names (names : List String) : ∀ (i : ℕ) (N : List ℕ) (x fx : List ℝ) kvs,
    getParamsFrom names i N x fx = .ok kvs → kvs.map Prod.fst = names := by
  induction names with
  | nil => intro i N x fx kvs h; simp [getParamsFrom] at h; simp [← h]
  | cons a l ih =>
    intro i N x fx kvs h
    unfold getParamsFrom at h
    split_ifs at h
    · cases x with
      | nil => simp at h
      | cons p ps =>
        dsimp only at h
        cases h1 : getParamsFrom l (i + 1) N ps fx with
        | error e => rw [h1] at h; simp [Except.map] at h
        | ok t =>
          rw [h1] at h; simp only [Except.map, Except.ok.injEq] at h
          subst h; simp [ih _ _ _ _ _ h1]
    · cases fx with
      | nil => simp at h
      | cons p ps =>
        dsimp only at h
        cases h1 : getParamsFrom l (i + 1) N x ps with
        | error e => rw [h1] at h; simp [Except.map] at h
        | ok t =>
          rw [h1] at h; simp only [Except.map, Except.ok.injEq] at h
          subst h; simp [ih _ _ _ _ _ h1]

/-- both raise the same exception, or both end at the same point with objects of the same law -/
def SameFit (f : Family) : Except Err (List ℝ × Obj) → Except Err (List ℝ × Obj) → Prop
  | .ok a, .ok b => a.1 = b.1 ∧ law f a.2 = law f b.2 ∧ a.2.names = b.2.names
  | .error e, .error e' => e = e'
  | _, _ => False

theorem apply_agree (f : Family) (names : List String) (hs : ScaledNames f names) (N : List ℕ)
    (fx x : List ℝ) (o o' : Obj) :
    Agree f (applyCandidate f names N fx x o) (applyCandidate f names N fx x o') := by
  unfold applyCandidate
  cases h : getParams names x N fx with
  | error e => rfl
  | ok kvs =>
    have := getParamsFrom_names _ _ _ _ _ _ h
    exact complete_agree f kvs (by rw [this]; exact hs) o o'

private theorem run_agree (f : Family) (names : List String) (hs : ScaledNames f names) (N : List ℕ)
    (fx : List ℝ) (res : List (Option ℝ) → List ℝ) (s : Strategy) : ∀ o o' : Obj,
    (∃ e, run f names N fx res s o = .error e ∧ run f names N fx res s o' = .error e) ∨
    ∃ x a b, run f names N fx res s o = .ok (x, a) ∧ run f names N fx res s o' = .ok (x, b) := by
  induction s with
  | stop x => intro o o'; exact Or.inr ⟨x, o, o', rfl, rfl⟩
  | ask x next ih =>
    intro o o'
    have h := apply_agree f names hs N fx x o o'
    unfold run
    cases h1 : applyCandidate f names N fx x o <;> cases h2 : applyCandidate f names N fx x o' <;>
      rw [h1, h2] at h <;> simp only [Agree] at h
    · exact Or.inl ⟨_, rfl, by rw [h]; rfl⟩
    · simp only [Except.ok_bind']
      rw [← h.1]
      exact ih _ _ _

/-- C74: a fit does not remember: started from the same point (`params`), it evaluates the objective at
the same points, fails or succeeds alike and ends with the same parameters and the same law, whatever
the attributes of the object were. -/
theorem fit_history (opt : Optimiser) (f : Family) (names : List String) (hs : ScaledNames f names)
    (box : Box) (N : List ℕ) (fx : List ℝ) (res : List (Option ℝ) → List ℝ) (o o' : Obj)
    (hp : o.params = o'.params) :
    SameFit f (fit opt f names box N fx res o) (fit opt f names box N fx res o') := by
  unfold fit
  rw [hp]
  dsimp only
  cases opt (N.map fun i => ((o'.params.getD [])[i]?).join) (N.filterMap fun i => box[i]?) with
  | error e => rfl
  | ok s =>
    simp only [Except.ok_bind']
    rcases run_agree f names hs N fx res s o o' with ⟨e, h1, h2⟩ | ⟨x, a, b, h1, h2⟩
    · rw [h1, h2]; rfl
    · rw [h1, h2]
      simp only [Except.ok_bind']
      have h := apply_agree f names hs N fx x a b
      cases h3 : applyCandidate f names N fx x a <;> cases h4 : applyCandidate f names N fx x b <;>
        rw [h3, h4] at h <;> simp only [Agree] at h
      · exact h
      · exact ⟨rfl, h.1, h.2⟩

private theorem run_answer (f : Family) (names : List String) (hs : ScaledNames f names) (N : List ℕ)
    (fx : List ℝ) (res : List (Option ℝ) → List ℝ) (F : List ℝ → Except Err (List ℝ))
    (hF : ∀ x o r, F x = .ok r → ∃ o', applyCandidate f names N fx x o = .ok o' ∧ res (law f o') = r)
    (s : Strategy) : ∀ (x : List ℝ) (o : Obj), answer F s = .ok x →
      ∃ o', run f names N fx res s o = .ok (x, o') := by
  induction s with
  | stop x => intro y o h; simp only [answer, Except.ok.injEq] at h; subst h; exact ⟨o, rfl⟩
  | ask x next ih =>
    intro y o h
    unfold answer at h
    cases h1 : F x with
    | error e => rw [h1] at h; simp [Except.error_bind'] at h
    | ok r =>
      rw [h1] at h
      obtain ⟨o', h2, h3⟩ := hF x o r h1
      obtain ⟨o'', h4⟩ := ih r y o' h
      refine ⟨o'', ?_⟩
      unfold run
      rw [h2]
      simp only [Except.ok_bind']
      rw [h3, h4]

private theorem lookup_map_some (l : List String) (kw : Kw) (h : ∀ k, (kw k).isSome ↔ k ∈ l) (k : String) :
    (l.filterMap fun k => (kw k).map fun v => (k, v)).lookup k = kw k := by
  have main : ∀ m : List String, (∀ k ∈ m, (kw k).isSome) →
      (m.filterMap fun k => (kw k).map fun v => (k, v)).lookup k = if k ∈ m then kw k else none := by
    intro m
    induction m with
    | nil => intro _; rfl
    | cons a m ih =>
      intro hm
      obtain ⟨v, hv⟩ := Option.isSome_iff_exists.1 (hm a (by simp))
      rw [List.filterMap_cons_some (b := (a, v)) (by simp [hv]), List.lookup_cons]
      by_cases hk : k = a
      · subst hk; simp [hv]
      · have : (k == a) = false := by simpa using hk
        rw [this, ih fun k hk => hm k (by simp [hk])]
        simp [hk]
  rw [main l fun k hk => (h k).2 hk]
  split_ifs with hk
  · rfl
  · have := mt (h k).1 hk
    simp only [Bool.not_eq_true, Option.isSome_eq_false_iff, Option.isNone_iff_eq_none] at this
    exact this.symm

private theorem choice_filled (o : Obj) (kw : Kw) (h1 : ∀ k, (kw k).isSome ↔ k ∈ o.names)
    (h2 : ∀ k ∈ o.names, ∀ v, o.attr k = some v → kw k = some v) :
    Filled o.names o.attr ((o.names.filter fun k => (o.attr k).isNone).filterMap kw)
      (o.names.filterMap fun k => (kw k).map fun v => (k, v)) := by
  have main : ∀ m : List String, (∀ k ∈ m, (kw k).isSome) →
      (∀ k ∈ m, ∀ v, o.attr k = some v → kw k = some v) →
      Filled m o.attr ((m.filter fun k => (o.attr k).isNone).filterMap kw)
        (m.filterMap fun k => (kw k).map fun v => (k, v)) := by
    intro m
    induction m with
    | nil => intro _ _; exact ⟨rfl, by simp, rfl⟩
    | cons a m ih =>
      intro hm hu
      obtain ⟨v, hv⟩ := Option.isSome_iff_exists.1 (hm a (by simp))
      obtain ⟨i1, i2, i3⟩ := ih (fun k hk => hm k (by simp [hk])) fun k hk => hu k (by simp [hk])
      rw [List.filterMap_cons_some (b := (a, v)) (by simp [hv])]
      refine ⟨by simp [i1], ?_, ?_⟩
      · intro kv hkv w hw
        rcases List.mem_cons.1 hkv with rfl | hkv
        · have := hu a (by simp) w hw
          rw [hv] at this
          simpa using this
        · exact i2 kv hkv w hw
      · by_cases ha : (o.attr a).isNone
        · simp [ha, hv, i3]
        · simp [ha, i3]
  exact main _ (fun k hk => (h1 k).2 hk) h2

theorem free_length (user : String → Option ℝ) (l : List String) : ∀ i,
    ((l.zipIdx i).filter fun ni => (user ni.1).isNone).length = (l.filter fun k => (user k).isNone).length := by
  induction l with
  | nil => intro i; rfl
  | cons a l ih =>
    intro i
    rw [List.zipIdx_cons, List.filter_cons, List.filter_cons]
    split_ifs <;> simp [ih]

theorem objective_apply (f : Family) (o : Obj) (hs : ScaledNames f o.names)
    (res : List (Option ℝ) → List ℝ) (F : List ℝ → Except Err (List ℝ))
    (hF : IsObjective f o.names o.attr res F) (x : List ℝ)
    (o1 : Obj) (r : List ℝ) (h : F x = .ok r) :
    ∃ o', applyCandidate f o.names (getFixedParams o).1 (getFixedParams o).2 x o1 = .ok o' ∧
      res (law f o') = r ∧ ∃ kvs d, Filled o.names o.attr x kvs ∧
        construct f (fun k => kvs.lookup k) = .ok d ∧ law f o' = law f d ∧ o'.names = d.names := by
  have hx : x.length = (getFixedParams o).1.length := by
    by_contra hne
    have : (getFixedParams o).1.length = (o.names.filter fun k => (o.attr k).isNone).length := by
      rw [getFixedParams_eq, List.length_map]
      exact free_length o.attr o.names 0
    rw [hF.2 x (by rw [← this]; exact hne)] at h
    simp at h
  obtain ⟨kvs, h1, h2⟩ := candidate_filled o x hx
  have h3 := hF.1 x kvs h2
  rw [h] at h3
  have h4 := construct_agree f kvs (by rw [h2.names]; exact hs) o1
  unfold applyCandidate
  rw [h1]
  simp only [Except.ok_bind']
  change _ = (construct f (kwCall kvs)).map _ at h3
  cases h5 : construct f (kwCall kvs) with
  | error e => rw [h5] at h3; simp [Except.map] at h3
  | ok d =>
    rw [h5] at h3 h4
    cases h6 : parametrize f (kwCall kvs) o1 with
    | error e => rw [h6] at h4; simp [Agree] at h4
    | ok o' =>
      rw [h6] at h4
      simp only [Agree] at h4
      simp only [Except.map, Except.ok.injEq] at h3
      exact ⟨o', rfl, by rw [h3, h4.1], kvs, d, h2, h5, h4.1, h4.2⟩

/-- the bounds handed to the optimiser: those of the free parameters -/
noncomputable def freeBounds (o : Obj) (box : Box) : Box := (getFixedParams o).1.filterMap fun i => box[i]?

/-- the starting point: the current values of the free parameters -/
noncomputable def startAt (o o1 : Obj) : List (Option ℝ) :=
  (getFixedParams o).1.map fun i => ((o1.params.getD [])[i]?).join

/-- C74: with an optimiser that finds the minimum, a fit gives one of the distributions the user could
build with the values they gave, and none of those has a smaller sum of squares.  `o` is the object before
the starting point is set (which is `o1`). -/
theorem fit_best (opt : Optimiser) (f : Family) (o o1 : Obj) (hs : ScaledNames f o.names) (box : Box)
    (res : List (Option ℝ) → List ℝ) (F : List ℝ → Except Err (List ℝ))
    (hF : IsObjective f o.names o.attr res F) (ho : Finds opt F (startAt o o1) (freeBounds o box)) :
    ∃ x o', fit opt f o.names box (getFixedParams o).1 (getFixedParams o).2 res o1 = .ok (x, o') ∧
      InBox (freeBounds o box) x ∧
      (∃ kvs d, Filled o.names o.attr x kvs ∧ construct f (fun k => kvs.lookup k) = .ok d ∧
        law f o' = law f d ∧ o'.names = d.names) ∧
      ∀ d, Choice f o (freeBounds o box) d → cost (res (law f o')) ≤ cost (res (law f d)) := by
  obtain ⟨s, h1, x, r, h2, h3, h4, h5⟩ := ho
  have hap := objective_apply f o hs res F hF
  obtain ⟨o2, h6⟩ := run_answer f o.names hs _ _ res F (fun x o1 r h => by
    obtain ⟨o', a, b, _⟩ := hap x o1 r h; exact ⟨o', a, b⟩) s x o1 h2
  obtain ⟨o', h7, h8, h9⟩ := hap x o2 r h4
  refine ⟨x, o', ?_, h3, h9, ?_⟩
  · unfold fit
    unfold startAt freeBounds at h1
    dsimp only
    rw [h1]
    simp only [Except.ok_bind']
    rw [h6]
    simp only [Except.ok_bind']
    rw [h7]
    rfl
  · rintro d ⟨kw, c1, c2, c3, c4⟩
    rw [h8]
    refine h5 _ c4 _ ?_
    rw [hF.1 _ _ (choice_filled o kw c2 c3)]
    have : (fun k => (o.names.filterMap fun k => (kw k).map fun v => (k, v)).lookup k) = kw :=
      funext fun k => lookup_map_some o.names kw c2 k
    rw [this, c1]
    rfl

private theorem cost_nonneg (r : List ℝ) : 0 ≤ cost r := by
  apply List.sum_nonneg
  intro a ha
  obtain ⟨b, -, rfl⟩ := List.mem_map.1 ha
  positivity

private theorem cost_zero (r : List ℝ) (h : cost r ≤ 0) : ∀ a ∈ r, a = 0 := by
  induction r with
  | nil => simp
  | cons a r ih =>
    have h1 : cost (a :: r) = a ^ 2 + cost r := by simp [cost]
    have h2 := cost_nonneg r
    intro b hb
    rcases List.mem_cons.1 hb with rfl | hb
    · have : b ^ 2 ≤ 0 := by rw [h1] at h; linarith
      exact pow_eq_zero_iff (two_ne_zero) |>.1 (le_antisymm this (by positivity))
    · exact ih (by rw [h1] at h; nlinarith [sq_nonneg a]) b hb

/-- C74: if some distribution with the given values has the three quartiles asked for, the quartile fit
returns one that has them. -/
theorem quartile_exact (opt : Optimiser) (f : Family) (cdf : List (Option ℝ) → ℝ → ℝ) (q1 q2 q3 : ℝ)
    (o o1 : Obj) (hs : ScaledNames f o.names) (box : Box) (F : List ℝ → Except Err (List ℝ))
    (hF : IsObjective f o.names o.attr (fun l => [cdf l q1 - 1 / 4, cdf l q2 - 1 / 2, cdf l q3 - 3 / 4]) F)
    (ho : Finds opt F (startAt o o1) (freeBounds o box))
    (d : Obj) (hd : Choice f o (freeBounds o box) d)
    (h1 : cdf (law f d) q1 = 1 / 4) (h2 : cdf (law f d) q2 = 1 / 2) (h3 : cdf (law f d) q3 = 3 / 4) :
    Gives (optimizeQuartile opt f cdf q1 q2 q3 o.names box (getFixedParams o).1 (getFixedParams o).2 o1)
      fun r => cdf (law f r.2) q1 = 1 / 4 ∧ cdf (law f r.2) q2 = 1 / 2 ∧ cdf (law f r.2) q3 = 3 / 4 := by
  have he : quartileResidual cdf q1 q2 q3 =
      fun l => [cdf l q1 - 1 / 4, cdf l q2 - 1 / 2, cdf l q3 - 3 / 4] := by
    funext l; unfold quartileResidual; norm_num
  unfold optimizeQuartile
  rw [he]
  obtain ⟨x, o', e1, -, -, e2⟩ := fit_best opt f o o1 hs box _ F hF ho
  rw [e1]
  have e3 := e2 d hd
  rw [show cost [cdf (law f d) q1 - 1 / 4, cdf (law f d) q2 - 1 / 2, cdf (law f d) q3 - 3 / 4] = 0 by
    rw [h1, h2, h3]; simp [cost]] at e3
  have e4 := cost_zero _ e3
  simp only [List.mem_cons, List.not_mem_nil, or_false, forall_eq_or_imp, forall_eq] at e4
  exact ⟨_, rfl, sub_eq_zero.1 e4.1, sub_eq_zero.1 e4.2.1, sub_eq_zero.1 e4.2.2⟩

/-- C74: the loss the histogram fit reports is half the sum of squares of the distribution it leaves
behind, and no distribution with the given values has a smaller one. -/
theorem pdf_best (opt : Optimiser) (f : Family) (pdf : List (Option ℝ) → ℝ → ℝ) (xs epdf : List ℝ)
    (o o1 : Obj) (hs : ScaledNames f o.names) (box : Box) (F : List ℝ → Except Err (List ℝ))
    (hF : IsObjective f o.names o.attr (fun l => List.zipWith (fun x e => pdf l x - e) xs epdf) F)
    (ho : Finds opt F (startAt o o1) (freeBounds o box)) :
    Gives (optimizePdf opt f pdf xs epdf o.names box (getFixedParams o).1 (getFixedParams o).2 o1) fun r =>
      r.1 = ((xs.zip epdf).map fun xe => (pdf (law f r.2) xe.1 - xe.2) ^ 2).sum / 2 ∧
      ∀ d, Choice f o (freeBounds o box) d →
        r.1 ≤ ((xs.zip epdf).map fun xe => (pdf (law f d) xe.1 - xe.2) ^ 2).sum / 2 := by
  have hc : ∀ l, cost (List.zipWith (fun x e => pdf l x - e) xs epdf) =
      ((xs.zip epdf).map fun xe => (pdf l xe.1 - xe.2) ^ 2).sum := by
    intro l
    unfold cost
    rw [← List.map_uncurry_zip_eq_zipWith, List.map_map]
    rfl
  obtain ⟨x, o', e1, -, -, e2⟩ := fit_best opt f o o1 hs box _ F hF ho
  unfold optimizePdf pdfResidual
  rw [e1]
  have hr : (List.map (fun x => x ^ 2) (List.zipWith (fun x e => pdf (law f o') x - e) xs epdf)).sum =
      ((xs.zip epdf).map fun xe => (pdf (law f o') xe.1 - xe.2) ^ 2).sum := hc _
  refine ⟨_, rfl, ?_, ?_⟩
  · change (List.map (fun x => x ^ 2) (List.zipWith (fun x e => pdf (law f o') x - e) xs epdf)).sum / 2 = _
    rw [hr]
  · intro d hd
    change (List.map (fun x => x ^ 2) (List.zipWith (fun x e => pdf (law f o') x - e) xs epdf)).sum / 2 ≤ _
    have h := e2 d hd
    simp only [hc] at h
    rw [hr]
    linarith

/-- C74: if some distribution with the given values has all the quantiles asked for, the quantile fit
returns one that has them. -/
theorem quantiles_exact (opt : Optimiser) (f : Family) (ppf : List (Option ℝ) → ℝ → ℝ) (qs target : List ℝ)
    (o o1 : Obj) (hs : ScaledNames f o.names) (box : Box) (F : List ℝ → Except Err (List ℝ))
    (hF : IsObjective f o.names o.attr
      (fun l => [((qs.zip target).map fun qt => (ppf l qt.1 - qt.2) ^ 2).sum]) F)
    (ho : Finds opt F (startAt o o1) (freeBounds o box))
    (d : Obj) (hd : Choice f o (freeBounds o box) d)
    (h : ∀ qt ∈ qs.zip target, ppf (law f d) qt.1 = qt.2) :
    Gives (optimizeQuantiles opt f ppf qs target o.names box (getFixedParams o).1 (getFixedParams o).2 o1)
      fun r => ∀ qt ∈ qs.zip target, ppf (law f r.2) qt.1 = qt.2 := by
  have he : quantileResidual ppf qs target =
      fun l => [((qs.zip target).map fun qt => (ppf l qt.1 - qt.2) ^ 2).sum] := by
    funext l
    unfold quantileResidual
    rw [← List.map_uncurry_zip_eq_zipWith]
    rfl
  unfold optimizeQuantiles
  rw [he]
  obtain ⟨x, o', e1, -, -, e2⟩ := fit_best opt f o o1 hs box _ F hF ho
  rw [e1]
  have e3 := e2 d hd
  have hz : ((qs.zip target).map fun qt => (ppf (law f d) qt.1 - qt.2) ^ 2).sum = 0 := by
    apply List.sum_eq_zero
    intro a ha
    obtain ⟨qt, hq, rfl⟩ := List.mem_map.1 ha
    rw [h qt hq]; ring
  rw [show cost [((qs.zip target).map fun qt => (ppf (law f d) qt.1 - qt.2) ^ 2).sum] = 0 by
    rw [hz]; simp [cost]] at e3
  have e4 := cost_zero _ e3 _ (List.mem_singleton.2 rfl)
  have e5 : cost ((qs.zip target).map fun qt => ppf (law f o') qt.1 - qt.2) ≤ 0 := by
    unfold cost
    rw [List.map_map]
    exact le_of_eq e4
  refine ⟨_, rfl, ?_⟩
  intro qt hq
  exact sub_eq_zero.1 (cost_zero _ e5 _ (List.mem_map_of_mem hq))

/-- C74: if some distribution with the given values has all the moments asked for, the moment fit returns
one that has them. -/
theorem moments_exact (opt : Optimiser) (f : Family) (moments : List (Option ℝ) → List ℝ) (target : List ℝ)
    (hl : ∀ l, (moments l).length = target.length)
    (o o1 : Obj) (hs : ScaledNames f o.names) (box : Box) (F : List ℝ → Except Err (List ℝ))
    (hF : IsObjective f o.names o.attr
      (fun l => [(((moments l).zip target).map fun vt => (vt.1 - vt.2) ^ 2).sum]) F)
    (ho : Finds opt F (startAt o o1) (freeBounds o box))
    (d : Obj) (hd : Choice f o (freeBounds o box) d) (h : moments (law f d) = target) :
    Gives (optimizeMoments opt f moments target o.names box (getFixedParams o).1 (getFixedParams o).2 o1)
      fun r => moments (law f r.2) = target := by
  have he : momentsResidual moments target =
      fun l => [(((moments l).zip target).map fun vt => (vt.1 - vt.2) ^ 2).sum] := by
    funext l
    unfold momentsResidual
    rw [← List.map_uncurry_zip_eq_zipWith]
    rfl
  unfold optimizeMoments
  rw [he]
  obtain ⟨x, o', e1, -, -, e2⟩ := fit_best opt f o o1 hs box _ F hF ho
  rw [e1]
  have e3 := e2 d hd
  have hz : (((moments (law f d)).zip target).map fun vt => (vt.1 - vt.2) ^ 2).sum = 0 := by
    rw [h]
    apply List.sum_eq_zero
    intro a ha
    obtain ⟨vt, hq, rfl⟩ := List.mem_map.1 ha
    have : vt.1 = vt.2 := by
      rw [List.zip_eq_zipWith, List.zipWith_self] at hq
      obtain ⟨a, -, rfl⟩ := List.mem_map.1 hq
      rfl
    rw [this]; ring
  rw [show cost [(((moments (law f d)).zip target).map fun vt => (vt.1 - vt.2) ^ 2).sum] = 0 by
    rw [hz]; simp [cost]] at e3
  have e4 := cost_zero _ e3 _ (List.mem_singleton.2 rfl)
  have e5 : cost (((moments (law f o')).zip target).map fun vt => vt.1 - vt.2) ≤ 0 := by
    unfold cost
    rw [List.map_map]
    exact le_of_eq e4
  refine ⟨_, rfl, ?_⟩
  apply List.ext_getElem (hl _)
  intro i hi hi'
  have := cost_zero _ e5 ((moments (law f o'))[i] - target[i])
    (List.mem_map.2 ⟨((moments (law f o'))[i], target[i]), by
      rw [List.mem_iff_getElem]
      exact ⟨i, by simp [hi, hi'], by simp⟩, rfl⟩)
  exact sub_eq_zero.1 this

/-- C74: if some distribution with the given values has the mean and the standard deviation asked for,
the numerical moment fit ends with one that has them. -/
theorem mean_sigma_exact (opt : Optimiser) (f : Family) (meanStd : List (Option ℝ) → ℝ × ℝ) (mean sigma : ℝ)
    (start : List ℝ) (o o1 : Obj) (hs : ScaledNames f o.names) (box : Box) (hst : update f start o = .ok o1)
    (hn : o1.names = o.names) (F : List ℝ → Except Err (List ℝ))
    (hF : IsObjective f o.names o.attr (fun l => [|(meanStd l).1 - mean| + |(meanStd l).2 - sigma|]) F)
    (ho : Finds opt F (startAt o o1) (freeBounds o box))
    (d : Obj) (hd : Choice f o (freeBounds o box) d) (h : meanStd (law f d) = (mean, sigma)) :
    Gives (optimizeMeanSigma opt f meanStd mean sigma start box o) fun r =>
      meanStd (law f r.2) = (mean, sigma) := by
  unfold optimizeMeanSigma
  dsimp only
  rw [hst]
  simp only [Except.ok_bind']
  rw [hn]
  obtain ⟨x, o', e1, -, -, e2⟩ := fit_best opt f o o1 hs box _ F hF ho
  rw [show meanSigmaResidual meanStd mean sigma =
    fun l => [|(meanStd l).1 - mean| + |(meanStd l).2 - sigma|] from rfl, e1]
  have e3 := e2 d hd
  rw [show cost [|(meanStd (law f d)).1 - mean| + |(meanStd (law f d)).2 - sigma|] = 0 by
    rw [h]; simp [cost]] at e3
  have e4 := cost_zero _ e3 _ (List.mem_singleton.2 rfl)
  have a := abs_nonneg ((meanStd (law f o')).1 - mean)
  have b := abs_nonneg ((meanStd (law f o')).2 - sigma)
  have a0 : |(meanStd (law f o')).1 - mean| = 0 := by linarith
  have b0 : |(meanStd (law f o')).2 - sigma| = 0 := by linarith
  exact ⟨_, rfl, Prod.ext (sub_eq_zero.1 (abs_eq_zero.1 a0)) (sub_eq_zero.1 (abs_eq_zero.1 b0))⟩

/-! The hypotheses are met: a Normal with `mu` given and an optimiser that asks once and stops at the
right `sigma`; the "cdf" of the quartile fit is that of a Uniform, the other functions are chosen to make the
values easy. -/

/-- `Normal(mu=1)` -/
private noncomputable def half : Obj :=
  { attr := fun k => if k = "mu" then some 1 else none
    names := ["mu", "sigma"], params := none, frozen := false }

private noncomputable def oneStep (v : ℝ) : Optimiser := fun _ _ => .ok (.ask [5] fun _ => .stop [v])

private noncomputable def halfF (res : List (Option ℝ) → List ℝ) : List ℝ → Except Err (List ℝ)
  | [s] => .ok (res [some 1, some s])
  | _ => .error .valueError

private theorem half_free : getFixedParams half = ([1], [1]) := by
  simp [getFixedParams, half, splitStep]

private theorem half_bounds : freeBounds half [(⊥, ⊤), (((eps : ℝ) : EReal), ⊤)] = [(((eps : ℝ) : EReal), ⊤)] := by
  simp [freeBounds, half_free]

private theorem half_construct (s : ℝ) (kw : Kw) (hm : kw "mu" = some 1) (hs : kw "sigma" = some s)
    (ht : kw "tau" = none) : ∃ d, construct .normal kw = .ok d ∧ law .normal d = [some 1, some s] := by
  simp [construct, parametrize, normalParam, allNotNone, hm, hs, ht, law, lawAttrs, normalUpdate,
    Obj.setAll, Obj.set, blank, Function.update]

private theorem half_objective (res : List (Option ℝ) → List ℝ) :
    IsObjective .normal half.names half.attr res (halfF res) := by
  constructor
  · intro cand kvs h
    obtain ⟨h1, h2, h3⟩ := h
    match kvs, h1, h2, h3 with
    | [(a, m), (b, s)], h1, h2, h3 =>
      simp only [List.map_cons, List.map_nil, half, List.cons.injEq, and_true] at h1
      obtain ⟨rfl, rfl⟩ := h1
      have hm : m = 1 := h2 ("mu", m) (by simp) 1 (by simp [half])
      simp [half] at h3
      subst hm h3
      obtain ⟨d, e1, e2⟩ := half_construct s (fun k => List.lookup k [("mu", 1), ("sigma", s)])
        (by simp [List.lookup]) (by simp [List.lookup]) (by simp [List.lookup])
      rw [e1]
      simp [halfF, Except.map, e2]
  · intro cand h
    have h' : cand.length ≠ 1 := by simpa [half] using h
    unfold halfF
    split
    · simp at h'
    · rfl

private theorem half_finds (res : List (Option ℝ) → List ℝ) (v : ℝ) (hv : (eps : ℝ) ≤ v)
    (hz : cost (res [some 1, some v]) = 0) (st : List (Option ℝ)) :
    Finds (oneStep v) (halfF res) st [(((eps : ℝ) : EReal), ⊤)] := by
  refine ⟨_, rfl, [v], res [some 1, some v], ?_, ?_, rfl, ?_⟩
  · simp [answer, halfF]
  · constructor
    · rfl
    · intro i h h'
      simp at h
      subst h
      simpa using hv
  · intro y _ r _
    rw [hz]
    exact cost_nonneg r

private theorem half_choice (v : ℝ) (hv : (eps : ℝ) ≤ v) :
    ∃ d, Choice .normal half [(((eps : ℝ) : EReal), ⊤)] d ∧ law .normal d = [some 1, some v] := by
  obtain ⟨d, e1, e2⟩ := half_construct v (fun k => if k = "mu" then some 1 else if k = "sigma" then some v else none)
    rfl (by simp) (by simp)
  refine ⟨d, ⟨_, e1, ?_, ?_, ?_⟩, e2⟩
  · intro k
    by_cases h1 : k = "mu"
    · simp [h1, half]
    · by_cases h2 : k = "sigma" <;> simp [h1, h2, half]
  · intro k hk w hw
    simp only [half] at hw
    split_ifs at hw with h
    simp [h, ← hw]
  · have : (List.filter (fun k => (half.attr k).isNone) half.names).filterMap
        (fun k => if k = "mu" then some 1 else if k = "sigma" then some v else none) = [v] := by
      simp [half, List.filter]
    rw [this]
    refine ⟨rfl, ?_⟩
    intro i h h'
    simp at h
    subst h
    simpa using hv

private theorem eps_le_two : (eps : ℝ) ≤ 2 := by unfold eps; norm_num

/-- the uniform on an interval of centre `mu` and half-width `sigma` -/
private noncomputable def boxCdf (l : List (Option ℝ)) (q : ℝ) : ℝ :=
  match l with
  | [some m, some s] => (q - (m - s)) / (2 * s)
  | _ => 0

example : Gives (optimizeQuartile (oneStep 2) .normal boxCdf 0 1 2 half.names [(⊥, ⊤), (((eps : ℝ) : EReal), ⊤)] [1] [1] half)
    fun r => boxCdf (law .normal r.2) 0 = 1 / 4 ∧ boxCdf (law .normal r.2) 1 = 1 / 2 ∧
      boxCdf (law .normal r.2) 2 = 3 / 4 := by
  obtain ⟨d, hd, hl⟩ := half_choice 2 eps_le_two
  have h := quartile_exact (oneStep 2) .normal boxCdf 0 1 2 half half (fun h => nomatch h) [(⊥, ⊤), (((eps : ℝ) : EReal), ⊤)] _
    (half_objective _) (by
      rw [half_bounds]
      exact half_finds _ 2 eps_le_two (by norm_num [boxCdf, cost]) _) d (by rw [half_bounds]; exact hd)
    (by rw [hl]; norm_num [boxCdf]) (by rw [hl]; norm_num [boxCdf]) (by rw [hl]; norm_num [boxCdf])
  rw [half_free] at h
  exact h

example : Gives (optimizeQuantiles (oneStep 2) .normal (fun l q => (l[0]?.join).getD 0 + q * (l[1]?.join).getD 0)
    [-1, 1] [-1, 3] half.names [(⊥, ⊤), (((eps : ℝ) : EReal), ⊤)] [1] [1] half) fun r =>
      ∀ qt ∈ List.zip [(-1 : ℝ), 1] [(-1 : ℝ), 3], ((law .normal r.2)[0]?.join).getD 0 + qt.1 * ((law .normal r.2)[1]?.join).getD 0
        = qt.2 := by
  obtain ⟨d, hd, hl⟩ := half_choice 2 eps_le_two
  have h := quantiles_exact (oneStep 2) .normal (fun l q => (l[0]?.join).getD 0 + q * (l[1]?.join).getD 0) [-1, 1]
    [-1, 3] half half (fun h => nomatch h) [(⊥, ⊤), (((eps : ℝ) : EReal), ⊤)] _ (half_objective _) (by
      rw [half_bounds]
      exact half_finds _ 2 eps_le_two (by norm_num [cost]) _) d (by rw [half_bounds]; exact hd)
    (by rw [hl]; norm_num)
  rw [half_free] at h
  exact h

example : Gives (optimizeMeanSigma (oneStep 2) .normal (fun l => ((l[0]?.join).getD 0, (l[1]?.join).getD 0)) 1 2
    [0, 1] [(⊥, ⊤), (((eps : ℝ) : EReal), ⊤)] half) fun r =>
      (((law .normal r.2)[0]?.join).getD 0, ((law .normal r.2)[1]?.join).getD 0) = (1, 2) := by
  obtain ⟨d, hd, hl⟩ := half_choice 2 eps_le_two
  exact mean_sigma_exact (oneStep 2) .normal _ 1 2 [0, 1] half _ (fun h => nomatch h) [(⊥, ⊤), (((eps : ℝ) : EReal), ⊤)] rfl
    (by simp [normalUpdate, half, Obj.setAll, Obj.set]) _ (half_objective _) (by
      rw [half_bounds]
      exact half_finds _ 2 eps_le_two (by norm_num [cost]) _) d (by rw [half_bounds]; exact hd)
    (by rw [hl]; norm_num)

example : Gives (optimizePdf (oneStep 2) .normal (fun l x => x * (l[1]?.join).getD 0) [1, 2] [2, 4]
    half.names [(⊥, ⊤), (((eps : ℝ) : EReal), ⊤)] [1] [1] half) fun r => r.1 ≤ 0 := by
  obtain ⟨d, hd, hl⟩ := half_choice 2 eps_le_two
  have h := pdf_best (oneStep 2) .normal (fun l x => x * (l[1]?.join).getD 0) [1, 2] [2, 4] half half
    (fun h => nomatch h) [(⊥, ⊤), (((eps : ℝ) : EReal), ⊤)] _ (half_objective _) (by
      rw [half_bounds]
      exact half_finds _ 2 eps_le_two (by norm_num [cost]) _)
  rw [half_free] at h
  obtain ⟨r, h1, -, h2⟩ := h
  refine ⟨r, h1, (h2 d (by rw [half_bounds]; exact hd)).trans ?_⟩
  rw [hl]
  norm_num

example : Gives (optimizeMoments (oneStep 2) .normal (fun l => [(l[0]?.join).getD 0, (l[1]?.join).getD 0]) [1, 2]
    half.names [(⊥, ⊤), (((eps : ℝ) : EReal), ⊤)] [1] [1] half) fun r =>
      [((law .normal r.2)[0]?.join).getD 0, ((law .normal r.2)[1]?.join).getD 0] = [1, 2] := by
  obtain ⟨d, hd, hl⟩ := half_choice 2 eps_le_two
  have h := moments_exact (oneStep 2) .normal (fun l => [(l[0]?.join).getD 0, (l[1]?.join).getD 0]) [1, 2]
    (fun _ => rfl) half half (fun h => nomatch h) [(⊥, ⊤), (((eps : ℝ) : EReal), ⊤)] _ (half_objective _) (by
      rw [half_bounds]
      exact half_finds _ 2 eps_le_two (by norm_num [cost]) _) d (by rw [half_bounds]; exact hd)
    (by rw [hl]; norm_num)
  rw [half_free] at h
  exact h

/-- two objects that differ in their attributes, not in `params` -/
example : SameFit .normal
    (fit (oneStep 2) .normal half.names [(⊥, ⊤), (((eps : ℝ) : EReal), ⊤)] [1] [1] (fun l => [(l[1]?.join).getD 0]) half)
    (fit (oneStep 2) .normal half.names [(⊥, ⊤), (((eps : ℝ) : EReal), ⊤)] [1] [1] (fun l => [(l[1]?.join).getD 0])
      (half.set "tau" (some 7))) :=
  fit_history _ .normal _ (fun h => nomatch h) _ _ _ _ _ _ rfl

end Verif.Props
