import Verif.Spec.MaxentRun
import Verif.Props.NumFit
import Verif.Props.Select
import Verif.Spec.LocScale

/-!
# C136: the five runs of maxent
-/

namespace Verif.Props
open Verif Verif.Spec Verif.Param Verif.Optim Verif.NumFit Verif.MaxentRun

/-! ### The starting points -/

/-- **C136**: the runs start at the current values and at 0.75, 0.9, 1.1 and 1.25 times these, in this order. -/
theorem starts_at (current : List ℝ) (bounds : Box) :
    (starts current bounds).length = 5 ∧
    (starts current bounds)[0]? = some (current.map fun v : ℝ => (v : EReal)) ∧
    ∀ (k : ℕ) (c : ℝ), [3 / 4, 9 / 10, 11 / 10, 5 / 4][k]? = some c → ∃ p, (starts current bounds)[k + 1]? = some p ∧
      p.length = min current.length bounds.length ∧
      ∀ (i : ℕ) (v : ℝ) (b : EReal × EReal), current[i]? = some v → bounds[i]? = some b → b.1 ≤ b.2 →
        ∃ w, p[i]? = some w ∧ b.1 ≤ w ∧ w ≤ b.2 ∧ (b.1 ≤ ((c * v : ℝ) : EReal) → ((c * v : ℝ) : EReal) ≤ b.2 → w = ((c * v : ℝ) : EReal)) ∧
          (((c * v : ℝ) : EReal) < b.1 → w = b.1) ∧ (b.2 < ((c * v : ℝ) : EReal) → w = b.2) := by
  refine ⟨rfl, rfl, fun k c hk => ?_⟩
  have key : ∃ d : ℝ, [0.75, 0.9, 1.1, 1.25][k]? = some d ∧ d = c := by
    match k, hk with
    | 0, hk => exact ⟨0.75, rfl, by simp at hk; rw [← hk]; norm_num⟩
    | 1, hk => exact ⟨0.9, rfl, by simp at hk; rw [← hk]; norm_num⟩
    | 2, hk => exact ⟨1.1, rfl, by simp at hk; rw [← hk]; norm_num⟩
    | 3, hk => exact ⟨1.25, rfl, by simp at hk; rw [← hk]; norm_num⟩
    | n + 4, hk => simp at hk
  obtain ⟨d, hd, rfl⟩ := key
  refine ⟨List.zipWith (fun v b => min b.2 (max ((v * d : ℝ) : EReal) b.1)) current bounds, ?_, by simp, ?_⟩
  · simp only [starts, List.getElem?_cons_succ, List.getElem?_map, hd, Option.map_some]
  · intro i v b hv hb hlu
    refine ⟨min b.2 (max ((d * v : ℝ) : EReal) b.1), by simp [List.getElem?_zipWith, hv, hb, mul_comm], le_min hlu (le_max_right _ _),
      min_le_left _ _, fun h1 h2 => by rw [max_eq_left h1, min_eq_right h2], fun h => by rw [max_eq_right h.le, min_eq_right hlu],
      fun h => by rw [max_eq_left (hlu.trans h.le), min_eq_left h.le]⟩

/-- **C136**: a free parameter whose current value is zero starts at zero in all five runs. -/
theorem starts_zero (current : List ℝ) (bounds : Box) (i : ℕ) (b : EReal × EReal) (hv : current[i]? = some 0)
    (hb : bounds[i]? = some b) (h1 : b.1 ≤ 0) (h2 : 0 ≤ b.2) : ∀ p ∈ starts current bounds, p[i]? = some 0 := by
  intro p hp
  simp only [starts, List.mem_cons, List.mem_map, List.not_mem_nil, or_false] at hp
  rcases hp with rfl | ⟨c, -, rfl⟩
  · rw [List.getElem?_map, hv]; simp
  · simp [List.getElem?_zipWith, hv, hb, h1, h2]

/-! ### The runs do not disturb each other -/

private theorem point (s : Setup) (hs : ScaledNames s.f s.names) {E C} (hE : Figures s E C) (x : List ℝ) (o : Obj) :
    (∃ e, s.apply x o = .error e ∧ E x = .error e ∧ C x = .error e) ∨
    ∃ o', s.apply x o = .ok o' ∧ E x = (s.entropy (law s.f o')).map (fun h => h.map fun h => -h) ∧ C x = s.bound (law s.f o') := by
  have h := apply_agree s.f s.names hs s.noneIdx s.fixed x o blank
  change Agree s.f (s.apply x o) (s.apply x blank) at h
  cases h1 : s.apply x o <;> cases h2 : s.apply x blank <;> rw [h1, h2] at h <;> simp only [Agree] at h
  · subst h
    exact .inl ⟨_, rfl, hE.fails x _ h2⟩
  · exact .inr ⟨_, rfl, by rw [hE.entropy x _ h2, h.1], by rw [hE.bound x _ h2, h.1]⟩

/-- **C136**: a run is a function of its starting point: what the object was before makes no difference. -/
theorem run_forgets (s : Setup) (hs : ScaledNames s.f s.names) {E C} (hE : Figures s E C) (q : Quest) :
    ∀ o, (go s q o).1 = runOf E C q := by
  induction q with
  | stop x v => intro o; rfl
  | fail e => intro o; rfl
  | objective x next ih =>
    intro o
    unfold go runOf
    rcases point s hs hE x o with ⟨e, h1, h2, -⟩ | ⟨o', h1, h2, -⟩
    · rw [h1, h2]
    · rw [h1, h2]
      dsimp only
      cases s.entropy (law s.f o') with
      | error e => rfl
      | ok h => exact ih _ _
  | constraint x next ih =>
    intro o
    unfold go runOf
    rcases point s hs hE x o with ⟨e, h1, -, h2⟩ | ⟨o', h1, -, h2⟩
    · rw [h1, h2]
    · rw [h1, h2]
      dsimp only
      cases s.bound (law s.f o') with
      | error e => rfl
      | ok h => exact ih _ _

private theorem all_forget (s : Setup) (hs : ScaledNames s.f s.names) {E C} (hE : Figures s E C) (m : Minimiser) (bounds : Box)
    (ps : List (List EReal)) : ∀ o, (goAll s m bounds ps o).1 = collect (ps.map fun p => runOf E C (m p bounds)) := by
  induction ps with
  | nil => intro o; rfl
  | cons p ps ih =>
    intro o
    unfold goAll
    have h := run_forgets s hs hE (m p bounds) o
    rcases hg : go s (m p bounds) o with ⟨r, o'⟩
    rw [hg] at h
    dsimp only at h
    subst h
    simp only [List.map_cons]
    cases hr : runOf E C (m p bounds) with
    | error e => rfl
    | ok r => simp only [collect, ih]

private theorem pick_ok (s : Setup) (hs : ScaledNames s.f s.names) {E C} (hE : Figures s E C) (l : List Opt)
    (hl : ∀ r ∈ l, ∃ v, C r.x = .ok v) : ∀ best ent o, ∃ o', pick s best ent l o = .ok (pickBest (absOf C) best ent l, o') := by
  induction l with
  | nil => intro best ent o; exact ⟨o, rfl⟩
  | cons r l ih =>
    intro best ent o
    obtain ⟨v, hv⟩ := hl r (by simp)
    have ih := ih fun r hr => hl r (by simp [hr])
    unfold pick pickBest
    rcases point s hs hE r.x o with ⟨e, h1, -, h2⟩ | ⟨o', h1, -, h2⟩
    · rw [hv] at h2; cases h2
    · rw [h1]
      simp only [Except.ok_bind']
      rw [hv] at h2
      rw [← h2]
      simp only [Except.ok_bind']
      have ha : absOf C r.x = v.map fun b => |b| := by unfold absOf; rw [hv]
      rw [ha]
      cases v with
      | none => exact ih _ _ _
      | some b =>
        simp only [Option.map_some]
        cases r.value with
        | none => exact ih _ _ _
        | some w =>
          dsimp only
          split_ifs <;> exact ih _ _ _

private theorem pick_error (s : Setup) (hs : ScaledNames s.f s.names) {E C} (hE : Figures s E C) (l₁ l₂ : List Opt) (r : Opt) (e : Err)
    (hl : ∀ r ∈ l₁, ∃ v, C r.x = .ok v) (hr : C r.x = .error e) : ∀ best ent o, pick s best ent (l₁ ++ r :: l₂) o = .error e := by
  induction l₁ with
  | nil =>
    intro best ent o
    simp only [List.nil_append]
    unfold pick
    rcases point s hs hE r.x o with ⟨e', h1, -, h2⟩ | ⟨o', h1, -, h2⟩
    · rw [h1]
      rw [hr] at h2
      cases h2
      rfl
    · rw [h1]
      simp only [Except.ok_bind']
      rw [← h2, hr]
      rfl
  | cons a l ih =>
    intro best ent o
    obtain ⟨v, hv⟩ := hl a (by simp)
    have ih := ih fun r hr => hl r (by simp [hr])
    simp only [List.cons_append]
    unfold pick
    rcases point s hs hE a.x o with ⟨e, h1, -, h2⟩ | ⟨o', h1, -, h2⟩
    · rw [hv] at h2; cases h2
    · rw [h1]
      simp only [Except.ok_bind']
      rw [hv] at h2
      rw [← h2]
      simp only [Except.ok_bind']
      cases v with
      | none => exact ih _ _ _
      | some b =>
        cases a.value with
        | none => exact ih _ _ _
        | some w =>
          dsimp only
          split_ifs <;> exact ih _ _ _

/-- both raise the same exception, or both use the same run and leave distributions of the same law -/
def SameRun (f : Family) : Except Err (Opt × Obj) → Except Err (Opt × Obj) → Prop
  | .ok a, .ok b => a.1 = b.1 ∧ law f a.2 = law f b.2 ∧ a.2.names = b.2.names
  | .error e, .error e' => e = e'
  | _, _ => False

/-- the runs of maxent from the current values `current`, as functions of the starting point -/
noncomputable def runsFrom (E : List ℝ → Except Err (Option EReal)) (C : List ℝ → Except Err (Option ℝ)) (m : Minimiser)
    (current : List ℝ) (bounds : Box) : List (Except Err Opt) :=
  (starts current bounds).map fun p => runOf E C (m p bounds)

private theorem current_values (N : List ℕ) (o : Obj) (current : List ℝ)
    (hc : N.map (fun i => ((o.params.getD [])[i]?).join) = current.map some) : currentValues N o = .ok current := by
  unfold currentValues
  induction N generalizing current with
  | nil => cases current with
    | nil => rfl
    | cons a b => simp at hc
  | cons i l ih =>
    cases current with
    | nil => simp at hc
    | cons a b =>
      simp only [List.map_cons, List.cons.injEq] at hc
      rw [List.mapM_cons, hc.1, ih b hc.2]
      rfl

/-- **C136**: maxent, which evaluates entropy and mass on one object that it changes all the time, gives the same as choosing
among the five runs taken each on its own. -/
theorem maxent_runs (s : Setup) (hs : ScaledNames s.f s.names) {E C} (hE : Figures s E C) (m : Minimiser) (box : Box) (o o' : Obj)
    (current : List ℝ) (hc : s.noneIdx.map (fun i => ((o.params.getD [])[i]?).join) = current.map some)
    (hok : ∀ r ∈ collect (runsFrom E C m current (s.noneIdx.filterMap fun i => box[i]?)), ∃ v, C r.x = .ok v) :
    SameRun s.f (MaxentRun.optimize s m box o) (optimizeMaxEnt s.f s.names s.noneIdx s.fixed (absOf C)
      (runsFrom E C m current (s.noneIdx.filterMap fun i => box[i]?)) o') := by
  have hcur := current_values s.noneIdx o current hc
  unfold MaxentRun.optimize optimizeMaxEnt selectOpt
  dsimp only
  rw [hcur]
  simp only [Except.ok_bind']
  have hrun := all_forget s hs hE m (s.noneIdx.filterMap fun i => box[i]?) (starts current (s.noneIdx.filterMap fun i => box[i]?)) o
  change _ = collect (runsFrom E C m current (s.noneIdx.filterMap fun i => box[i]?)) at hrun
  rw [hrun]
  obtain ⟨o₁, h1⟩ := pick_ok s hs hE _ hok none ⊥
    (goAll s m (s.noneIdx.filterMap fun i => box[i]?) (starts current (s.noneIdx.filterMap fun i => box[i]?)) o).2
  rw [h1]
  simp only [Except.ok_bind']
  have fin : ∀ r : Opt, SameRun s.f ((s.apply r.x o₁) >>= fun o => pure (r, o))
      ((applyCandidate s.f s.names s.noneIdx s.fixed r.x o') >>= fun o => pure (r, o)) := by
    intro r
    have h := apply_agree s.f s.names hs s.noneIdx s.fixed r.x o₁ o'
    change Agree s.f (s.apply r.x o₁) _ at h
    cases h2 : s.apply r.x o₁ <;> cases h3 : applyCandidate s.f s.names s.noneIdx s.fixed r.x o' <;> rw [h2, h3] at h <;>
      simp only [Agree] at h
    · exact h
    · exact ⟨rfl, h.1, h.2⟩
  cases hp : pickBest (absOf C) none ⊥ (collect (runsFrom E C m current (s.noneIdx.filterMap fun i => box[i]?))) with
  | some r => exact fin r
  | none =>
    cases hl : collect (runsFrom E C m current (s.noneIdx.filterMap fun i => box[i]?)) with
    | nil => rfl
    | cons r l => exact fin r

/-- **C136**: an exception while the ends of the runs are checked is not swallowed: the first one is raised. -/
theorem maxent_check_raises (s : Setup) (hs : ScaledNames s.f s.names) {E C} (hE : Figures s E C) (m : Minimiser) (box : Box) (o : Obj)
    (current : List ℝ) (hc : s.noneIdx.map (fun i => ((o.params.getD [])[i]?).join) = current.map some)
    (l₁ l₂ : List Opt) (r : Opt) (e : Err)
    (hl : collect (runsFrom E C m current (s.noneIdx.filterMap fun i => box[i]?)) = l₁ ++ r :: l₂)
    (h1 : ∀ r ∈ l₁, ∃ v, C r.x = .ok v) (hr : C r.x = .error e) : MaxentRun.optimize s m box o = .error e := by
  unfold MaxentRun.optimize
  dsimp only
  rw [current_values s.noneIdx o current hc]
  simp only [Except.ok_bind']
  have hrun := all_forget s hs hE m (s.noneIdx.filterMap fun i => box[i]?) (starts current (s.noneIdx.filterMap fun i => box[i]?)) o
  change _ = collect (runsFrom E C m current (s.noneIdx.filterMap fun i => box[i]?)) at hrun
  rw [hrun, hl, pick_error s hs hE l₁ l₂ r e h1 hr]
  rfl

/-- **C136**: a free parameter without a current value is a TypeError. -/
theorem maxent_no_start (s : Setup) (m : Minimiser) (box : Box) (o : Obj)
    (hc : ∃ i ∈ s.noneIdx, ((o.params.getD [])[i]?).join = none) : MaxentRun.optimize s m box o = .error .typeError := by
  have main : ∀ l : List ℕ, (∃ i ∈ l, ((o.params.getD [])[i]?).join = none) → currentValues l o = .error .typeError := by
    intro l
    induction l with
    | nil => rintro ⟨i, hi, -⟩; simp at hi
    | cons a l ih =>
      rintro ⟨i, hi, h⟩
      unfold currentValues at *
      rw [List.mapM_cons]
      cases ha : ((o.params.getD [])[a]?).join with
      | none => rfl
      | some v =>
        rcases List.mem_cons.1 hi with rfl | hi
        · rw [ha] at h; cases h
        · simp only [Except.ok_bind']
          rw [ih ⟨i, hi, h⟩]
          rfl
  unfold MaxentRun.optimize
  dsimp only
  rw [main _ hc]
  rfl

private theorem collect_prefix (l : List (Except Err Opt)) : ∀ i r, (collect l)[i]? = some r →
    l[i]? = some (.ok r) ∧ ∀ j : ℕ, j < i → ∃ r', l[j]? = some (.ok r') := by
  induction l with
  | nil => intro i r h; simp [collect] at h
  | cons a l ih =>
    intro i r h
    cases a with
    | error e => simp [collect] at h
    | ok a =>
      cases i with
      | zero => simp only [collect, List.getElem?_cons_zero, Option.some.injEq] at h; subst h; exact ⟨rfl, by simp⟩
      | succ i =>
        simp only [collect, List.getElem?_cons_succ] at h
        obtain ⟨h1, h2⟩ := ih i r h
        refine ⟨by simpa using h1, fun j hj => ?_⟩
        cases j with
        | zero => exact ⟨a, rfl⟩
        | succ j =>
          obtain ⟨r', h'⟩ := h2 j (by omega)
          exact ⟨r', by simpa using h'⟩

private theorem same_ok {f : Family} {a b : Except Err (Opt × Obj)} (h : SameRun f a b) {r : Opt} {o : Obj} (ha : a = .ok (r, o)) :
    ∃ o', b = .ok (r, o') ∧ law f o = law f o' ∧ o.names = o'.names := by
  subst ha
  cases b with
  | error e => exact absurd h (by simp [SameRun])
  | ok b =>
    obtain ⟨r', o'⟩ := b
    obtain ⟨h1, h2, h3⟩ := h
    dsimp only at h1
    subst h1
    exact ⟨o', rfl, h2, h3⟩

private theorem checks_pass (s : Setup) (hs : ScaledNames s.f s.names) {E C} (hE : Figures s E C) (m : Minimiser) (box : Box) (o : Obj)
    (current : List ℝ) (hc : s.noneIdx.map (fun i => ((o.params.getD [])[i]?).join) = current.map some) (r : Opt) (o' : Obj)
    (h : MaxentRun.optimize s m box o = .ok (r, o')) :
    ∀ r ∈ collect (runsFrom E C m current (s.noneIdx.filterMap fun i => box[i]?)), ∃ v, C r.x = .ok v := by
  by_contra hne
  have split : ∀ l : List Opt, (¬ ∀ r ∈ l, ∃ v, C r.x = .ok v) →
      ∃ l₁ l₂ r e, l = l₁ ++ r :: l₂ ∧ (∀ r ∈ l₁, ∃ v, C r.x = .ok v) ∧ C r.x = .error e := by
    intro l
    induction l with
    | nil => intro h; exact absurd (by simp) h
    | cons a l ih =>
      intro h
      cases ha : C a.x with
      | error e => exact ⟨[], l, a, e, rfl, by simp, ha⟩
      | ok v =>
        obtain ⟨l₁, l₂, r, e, h1, h2, h3⟩ := ih fun hl => h fun r hr => by
          rcases List.mem_cons.1 hr with rfl | hr
          · exact ⟨v, ha⟩
          · exact hl r hr
        refine ⟨a :: l₁, l₂, r, e, by rw [h1]; rfl, fun r hr => ?_, h3⟩
        rcases List.mem_cons.1 hr with rfl | hr
        · exact ⟨v, ha⟩
        · exact h2 r hr
  obtain ⟨l₁, l₂, r', e, h1, h2, h3⟩ := split _ hne
  rw [maxent_check_raises s hs hE m box o current hc l₁ l₂ r' e h1 h2 h3] at h
  cases h

/-- **C136**: which run is used.  It is the outcome of one of the five, every earlier one was completed, and the distribution
is left at its end. -/
theorem maxent_one_of_five (s : Setup) (hs : ScaledNames s.f s.names) {E C} (hE : Figures s E C) (m : Minimiser) (box : Box) (o : Obj)
    (current : List ℝ) (hc : s.noneIdx.map (fun i => ((o.params.getD [])[i]?).join) = current.map some) (r : Opt) (o' : Obj)
    (h : MaxentRun.optimize s m box o = .ok (r, o')) :
    ∃ (i : ℕ) (p : List EReal), (starts current (s.noneIdx.filterMap fun i => box[i]?))[i]? = some p ∧
      runOf E C (m p (s.noneIdx.filterMap fun i => box[i]?)) = .ok r ∧
      (∀ (j : ℕ) (q : List EReal), j < i → (starts current (s.noneIdx.filterMap fun i => box[i]?))[j]? = some q →
        ∃ r', runOf E C (m q (s.noneIdx.filterMap fun i => box[i]?)) = .ok r') ∧
      ∃ d, s.apply r.x blank = .ok d ∧ law s.f o' = law s.f d ∧ o'.names = d.names := by
  have hok := checks_pass s hs hE m box o current hc r o' h
  obtain ⟨d, hd, e1, e2⟩ := same_ok (maxent_runs s hs hE m box o blank current hc hok) h
  obtain ⟨h1, h2⟩ := maxent_leaves_selected _ _ _ _ _ _ _ _ _ hd
  have mem : r ∈ collect (runsFrom E C m current (s.noneIdx.filterMap fun i => box[i]?)) := by
    unfold selectOpt at h1
    dsimp only at h1
    rcases pickBest_spec (absOf C) (collect (runsFrom E C m current (s.noneIdx.filterMap fun i => box[i]?))) none ⊥ with
      ⟨a, -⟩ | ⟨i, r', v, a, b, -⟩
    · rw [a] at h1
      cases hl : collect (runsFrom E C m current (s.noneIdx.filterMap fun i => box[i]?)) with
      | nil => rw [hl] at h1; cases h1
      | cons r' l => rw [hl] at h1; simp only [Except.ok.injEq] at h1; subst h1; simp
    · rw [a] at h1
      simp only [Except.ok.injEq] at h1
      subst h1
      exact List.mem_of_getElem? b
  obtain ⟨i, hi, e⟩ := List.mem_iff_getElem.1 mem
  obtain ⟨g1, g2⟩ := collect_prefix _ i r (by rw [List.getElem?_eq_getElem hi, e])
  have at_ : ∀ (j : ℕ) r, (runsFrom E C m current (s.noneIdx.filterMap fun i => box[i]?))[j]? = some (.ok r) →
      ∃ q, (starts current (s.noneIdx.filterMap fun i => box[i]?))[j]? = some q ∧
        runOf E C (m q (s.noneIdx.filterMap fun i => box[i]?)) = .ok r := by
    intro j r hj
    unfold runsFrom at hj
    rw [List.getElem?_map, Option.map_eq_some_iff] at hj
    exact hj
  obtain ⟨p, p1, p2⟩ := at_ i r g1
  refine ⟨i, p, p1, p2, fun j q hj hq => ?_, d, h2, e1, e2⟩
  obtain ⟨r', hr'⟩ := g2 j hj
  obtain ⟨q', a, b⟩ := at_ j r' hr'
  rw [hq] at a
  cases a
  exact ⟨r', b⟩

/-- **C136**: if the first run raises, whatever the exception, maxent raises an IndexError. -/
theorem maxent_first_fails (s : Setup) (hs : ScaledNames s.f s.names) {E C} (hE : Figures s E C) (m : Minimiser) (box : Box) (o : Obj)
    (current : List ℝ) (hc : s.noneIdx.map (fun i => ((o.params.getD [])[i]?).join) = current.map some) (e : Err)
    (h : runOf E C (m (current.map fun v : ℝ => (v : EReal)) (s.noneIdx.filterMap fun i => box[i]?)) = .error e) :
    MaxentRun.optimize s m box o = .error .indexError := by
  have hl : collect (runsFrom E C m current (s.noneIdx.filterMap fun i => box[i]?)) = [] := by
    unfold runsFrom starts
    rw [List.map_cons, h]
    rfl
  have hsame := maxent_runs s hs hE m box o blank current hc (by rw [hl]; simp)
  have : optimizeMaxEnt s.f s.names s.noneIdx s.fixed (absOf C) (runsFrom E C m current (s.noneIdx.filterMap fun i => box[i]?)) blank =
      .error .indexError := by
    unfold optimizeMaxEnt selectOpt
    dsimp only
    rw [hl]
    rfl
  rw [this] at hsame
  cases ho : MaxentRun.optimize s m box o with
  | error e => rw [ho] at hsame; exact congrArg _ hsame
  | ok r => rw [ho] at hsame; exact absurd hsame (by simp [SameRun])

/-- **C136**: if the current values of the free parameters are all zero (a symmetric interval and the location free), the five
runs are one and the same, and it is the one used. -/
theorem maxent_all_zero (s : Setup) (hs : ScaledNames s.f s.names) {E C} (hE : Figures s E C) (m : Minimiser) (box : Box) (o : Obj)
    (current : List ℝ) (hc : s.noneIdx.map (fun i => ((o.params.getD [])[i]?).join) = current.map some)
    (hz : ∀ v ∈ current, v = 0) (hlen : (s.noneIdx.filterMap fun i => box[i]?).length = current.length)
    (hb : ∀ b ∈ s.noneIdx.filterMap fun i => box[i]?, b.1 ≤ 0 ∧ 0 ≤ b.2) (r : Opt) (o' : Obj)
    (h : MaxentRun.optimize s m box o = .ok (r, o')) :
    runOf E C (m (List.replicate current.length 0) (s.noneIdx.filterMap fun i => box[i]?)) = .ok r := by
  obtain ⟨i, p, h1, h2, -⟩ := maxent_one_of_five s hs hE m box o current hc r o' h
  have : p = List.replicate current.length 0 := by
    have hmem := List.mem_of_getElem? h1
    have len : p.length = current.length := by
      simp only [starts, List.mem_cons, List.mem_map, List.not_mem_nil, or_false] at hmem
      rcases hmem with rfl | ⟨c, -, rfl⟩
      · simp
      · simp [hlen]
    refine List.eq_replicate_iff.2 ⟨len, fun v hv => ?_⟩
    obtain ⟨j, hj, rfl⟩ := List.mem_iff_getElem.1 hv
    have hj1 : j < current.length := by rw [← len]; exact hj
    have hj2 : j < (s.noneIdx.filterMap fun i => box[i]?).length := by rw [hlen]; exact hj1
    have hbj := hb _ (List.getElem_mem hj2)
    have := starts_zero current _ j _ (by rw [List.getElem?_eq_getElem hj1, hz _ (List.getElem_mem hj1)])
      (List.getElem?_eq_getElem hj2) hbj.1 hbj.2 p hmem
    rw [List.getElem?_eq_getElem hj] at this
    exact Option.some.inj this
  rw [this] at h2
  exact h2

/-- **C136**: with a minimiser that reports the value of the objective at its end.  If one of the runs completed before the
first failure misses the mass by less than 1e-4 and has an entropy that is neither NaN nor minus infinity, the distribution
returned misses the mass by less than 1e-4 and has the largest entropy among the ends of the completed runs that do. -/
theorem maxent_run_best (s : Setup) (hs : ScaledNames s.f s.names) {E C} (hE : Figures s E C) (m : Minimiser) (box : Box) (o : Obj)
    (current : List ℝ) (hc : s.noneIdx.map (fun i => ((o.params.getD [])[i]?).join) = current.map some)
    (honest : ∀ p r, runOf E C (m p (s.noneIdx.filterMap fun i => box[i]?)) = .ok r → E r.x = .ok r.value)
    (done : List Opt) (hdone : Completed (runsFrom E C m current (s.noneIdx.filterMap fun i => box[i]?)) done)
    (r₀ : Opt) (h₀ : r₀ ∈ done) (b₀ : ℝ) (hb₀ : C r₀.x = .ok (some b₀)) (hlt : |b₀| < 1 / 10000) (v₀ : EReal)
    (hv₀ : E r₀.x = .ok (some v₀)) (hfin : v₀ ≠ ⊤) (r : Opt) (o' : Obj) (h : MaxentRun.optimize s m box o = .ok (r, o')) :
    ∃ d b t, s.apply r.x blank = .ok d ∧ law s.f o' = law s.f d ∧ s.bound (law s.f o') = .ok (some b) ∧ |b| < 1 / 10000 ∧
      s.entropy (law s.f o') = .ok (some t) ∧
      ∀ r' ∈ done, ∀ b' v', C r'.x = .ok (some b') → |b'| < 1 / 10000 → E r'.x = .ok (some v') → -v' ≤ t := by
  obtain ⟨rest, hr1, hr2⟩ := hdone
  have hok := checks_pass s hs hE m box o current hc r o' h
  obtain ⟨d, hd, e1, e2⟩ := same_ok (maxent_runs s hs hE m box o blank current hc hok) h
  obtain ⟨h1, h2⟩ := maxent_leaves_selected _ _ _ _ _ _ _ _ _ hd
  have val : ∀ r' ∈ done, E r'.x = .ok r'.value := by
    intro r' hr'
    have : Except.ok r' ∈ runsFrom E C m current (s.noneIdx.filterMap fun i => box[i]?) := by
      rw [hr1]
      exact List.mem_append_left _ (List.mem_map.2 ⟨r', hr', rfl⟩)
    obtain ⟨p, -, hp⟩ := List.mem_map.1 this
    exact honest p r' hp
  have feas : ∀ r' ∈ done, ∀ v', Feasible (absOf C) r' v' ↔ (∃ b', C r'.x = .ok (some b') ∧ |b'| < 1 / 10000) ∧ E r'.x = .ok (some v') := by
    intro r' hr' v'
    unfold Feasible absOf
    rw [val r' hr']
    constructor
    · rintro ⟨⟨e, a, b⟩, c⟩
      refine ⟨?_, by rw [c]⟩
      cases hC : C r'.x with
      | error e => rw [hC] at a; cases a
      | ok w =>
        rw [hC] at a
        cases w with
        | none => cases a
        | some w => simp only [Option.map_some, Option.some.injEq] at a; exact ⟨w, rfl, by rw [a]; exact b⟩
    · rintro ⟨⟨b', a, b⟩, c⟩
      refine ⟨⟨|b'|, by rw [a]; rfl, b⟩, by simpa using c⟩
  obtain ⟨i, r', v, g1, g2, g3, g4, -⟩ := maxent_selects (absOf C) done rest hr2 r₀ h₀ v₀ ((feas r₀ h₀ v₀).2 ⟨⟨b₀, hb₀, hlt⟩, hv₀⟩) hfin
  rw [hr1] at h1
  rw [h1] at g1
  cases g1
  have hmem := List.mem_of_getElem? g2
  obtain ⟨⟨b, c1, c2⟩, c3⟩ := (feas r hmem v).1 g3
  have hd' : s.apply r.x blank = .ok d := h2
  have k1 := hE.bound r.x d hd'
  have k2 := hE.entropy r.x d hd'
  rw [c1, ← e1] at k1
  rw [c3, ← e1] at k2
  cases ht : s.entropy (law s.f o') with
  | error e => rw [ht] at k2; cases k2
  | ok t =>
    rw [ht] at k2
    cases t with
    | none => cases k2
    | some t =>
      simp only [Except.map, Option.map_some, Except.ok.injEq, Option.some.injEq] at k2
      refine ⟨d, b, t, hd', e1, k1.symm, c2, rfl, fun r' hr' b' v' q1 q2 q3 => ?_⟩
      have := g4 r' hr' v' ((feas r' hr' v').2 ⟨⟨b', q1, q2⟩, q3⟩)
      rw [k2] at this
      rw [EReal.neg_le]
      exact this

/-- **C136**: a point of the right length: `E` and `C` are the figures of the distribution the user would build from the values
given and the point. -/
theorem figures_are_built (s : Setup) (o : Obj) (hn : s.names = o.names) (hN : (s.noneIdx, s.fixed) = getFixedParams o)
    (hs : ScaledNames s.f s.names) {E C} (hE : Figures s E C) (x : List ℝ)
    (hx : x.length = (o.names.filter fun k => (o.attr k).isNone).length) :
    ∃ kvs, Filled o.names o.attr x kvs ∧
      (∀ d, construct s.f (fun k => kvs.lookup k) = .ok d →
        E x = (s.entropy (law s.f d)).map (fun h => h.map fun h => -h) ∧ C x = s.bound (law s.f d)) ∧
      ∀ e, construct s.f (fun k => kvs.lookup k) = .error e → E x = .error e ∧ C x = .error e := by
  have hx' : x.length = (getFixedParams o).1.length := by
    rw [hx, getFixedParams_eq, List.length_map]
    exact (free_length o.attr o.names 0).symm
  obtain ⟨kvs, h1, h2⟩ := candidate_filled o x hx'
  have h3 := construct_agree s.f kvs (by rw [h2.names, ← hn]; exact hs) blank
  have h4 : s.apply x blank = parametrize s.f (kwCall kvs) blank := by
    unfold Setup.apply applyCandidate
    rw [← hN] at h1
    rw [hn, h1]
    rfl
  refine ⟨kvs, h2, fun d hd => ?_, fun e he => ?_⟩
  · rw [show construct s.f (kwCall kvs) = .ok d from hd] at h3
    cases h5 : parametrize s.f (kwCall kvs) blank with
    | error e => rw [h5] at h3; exact absurd h3 (by simp [Agree])
    | ok d' =>
      rw [h5] at h3
      rw [h5] at h4
      rw [hE.entropy x d' h4, hE.bound x d' h4, h3.1]
      exact ⟨rfl, rfl⟩
  · rw [show construct s.f (kwCall kvs) = .error e from he] at h3
    cases h5 : parametrize s.f (kwCall kvs) blank with
    | error e' =>
      rw [h5] at h3
      rw [h5] at h4
      have : e' = e := h3
      rw [← this]
      exact hE.fails x e' h4
    | ok d' => rw [h5] at h3; exact absurd h3 (by simp [Agree])

/-! The hypotheses are met. -/

/-- the figures of a new object at a point exist for every distribution -/
theorem figures_exist (s : Setup) : ∃ E C, Figures s E C := by
  refine ⟨fun x => match s.apply x blank with
    | .ok d => (s.entropy (law s.f d)).map fun h => h.map fun h => -h
    | .error e => .error e, fun x => match s.apply x blank with
    | .ok d => s.bound (law s.f d)
    | .error e => .error e, fun x d h => by simp [h], fun x d h => by simp [h], fun x e h => by simp [h]⟩

/-- `maxent(Normal(sigma=1), 1, 3, p)` with the mean free -/
noncomputable def normalSetup (p : ℝ) : Setup :=
  ⟨.normal, ["mu", "sigma"], [0], [1], fun l => match l with
    | [some m, some s] => .ok (some ((entropyOf (normalPdf m s) : ℝ) : EReal))
    | _ => .error .typeError, fun l => match l with
    | [some m, some s] => .ok (some (massOf (normalPdf m s) 1 3 - p))
    | _ => .error .typeError⟩

theorem normalSetup_apply (p v : ℝ) (o : Obj) :
    ∃ d, (normalSetup p).apply [v] o = .ok d ∧ law .normal d = [some v, some 1] := by
  simp [Setup.apply, normalSetup, applyCandidate, getParams, getParamsFrom, Except.map, parametrize, normalParam, allNotNone, kwCall,
    List.lookup, law, lawAttrs, normalUpdate, Obj.setAll, Obj.set, Function.update, Except.ok_bind']

/-- a minimiser that evaluates objective and constraint at its starting point and stays there; the moment match of a normal
distribution to another interval has left the mean at 4, the second run starts at 3 and has the mass -/
example : ∃ (p : ℝ) (E : List ℝ → Except Err (Option EReal)) (C : List ℝ → Except Err (Option ℝ)) (m : Minimiser) (o : Obj) (done : List Opt) (r : Opt) (o' : Obj),
    Figures (normalSetup p) E C ∧ ScaledNames .normal ["mu", "sigma"] ∧
    [0].map (fun i => ((o.params.getD [])[i]?).join) = [some 4] ∧
    (∀ q r, runOf E C (m q [(⊥, ⊤)]) = .ok r → E r.x = .ok r.value) ∧
    Completed (runsFrom E C m [4] [(⊥, ⊤)]) done ∧ done.length = 5 ∧
    (∃ r₀ ∈ done, C r₀.x = .ok (some 0) ∧ ∃ v₀ : ℝ, E r₀.x = .ok (some (v₀ : EReal))) ∧
    MaxentRun.optimize (normalSetup p) m [(⊥, ⊤), (((eps : ℝ) : EReal), ⊤)] o = .ok (r, o') := by
  set p := massOf (normalPdf 3 1) 1 3 with hp
  obtain ⟨E, C, hE⟩ := figures_exist (normalSetup p)
  have e1 : ∀ v, E [v] = .ok (some ((-entropyOf (normalPdf v 1) : ℝ) : EReal)) := by
    intro v
    obtain ⟨d, h1, h2⟩ := normalSetup_apply p v blank
    rw [hE.entropy _ d h1, show law (normalSetup p).f d = _ from h2]
    rfl
  have e2 : ∀ v, C [v] = .ok (some (massOf (normalPdf v 1) 1 3 - p)) := by
    intro v
    obtain ⟨d, h1, h2⟩ := normalSetup_apply p v blank
    rw [hE.bound _ d h1, show law (normalSetup p).f d = _ from h2]
    rfl
  set m : Minimiser := fun q _ => .objective [(q.headD 0).toReal] fun v => .constraint [(q.headD 0).toReal] fun _ =>
    .stop [(q.headD 0).toReal] v with hm
  have hrun : ∀ q b, runOf E C (m q b) = .ok ⟨[(q.headD 0).toReal], some ((-entropyOf (normalPdf (q.headD 0).toReal 1) : ℝ) : EReal)⟩ := by
    intro q b
    simp only [hm, runOf, e1, e2]
  set o : Obj := ⟨fun _ => none, ["mu", "sigma"], some [some 4, some 1], false⟩ with ho
  set R : List EReal → Opt := fun q => ⟨[(q.headD 0).toReal], some ((-entropyOf (normalPdf (q.headD 0).toReal 1) : ℝ) : EReal)⟩ with hR
  have hruns : runsFrom E C m [4] [(⊥, ⊤)] = ((starts [4] [(⊥, ⊤)]).map R).map .ok ++ [] := by
    unfold runsFrom
    rw [List.append_nil, List.map_map]
    exact List.map_congr_left fun q _ => hrun q [(⊥, ⊤)]
  have h3 : R [((3 : ℝ) : EReal)] ∈ (starts [4] [(⊥, ⊤)]).map R := by
    refine List.mem_map.2 ⟨_, ?_, rfl⟩
    refine List.mem_cons_of_mem _ (List.mem_cons.2 (.inl ?_))
    have : (4 : ℝ) * 0.75 = 3 := by norm_num
    change [((3 : ℝ) : EReal)] = [min ⊤ (max (((4 : ℝ) * 0.75 : ℝ) : EReal) ⊥)]
    rw [this, max_eq_left bot_le, min_eq_right le_top]
  have hC3 : C (R [((3 : ℝ) : EReal)]).x = .ok (some 0) := by
    simp [hR, e2, ← hp]
  have hsel := maxent_selects (absOf C) ((starts [4] [(⊥, ⊤)]).map R) [] (by simp) (R [((3 : ℝ) : EReal)]) h3 _
    ⟨⟨0, by unfold absOf; rw [hC3]; simp, by norm_num⟩, rfl⟩ (EReal.coe_ne_top _)
  obtain ⟨i, r, v, s1, s2, -⟩ := hsel
  have hmem := List.mem_of_getElem? s2
  obtain ⟨q, -, rfl⟩ := List.mem_map.1 hmem
  obtain ⟨d, d1, d2⟩ := normalSetup_apply p (q.headD 0).toReal blank
  have hsame := maxent_runs (normalSetup p) (fun h => by cases h) hE m [(⊥, ⊤), (((eps : ℝ) : EReal), ⊤)] o blank [4] rfl (by
    intro r hr
    change r ∈ collect (runsFrom E C m [4] [(⊥, ⊤)]) at hr
    rw [hruns, collect_spec _ _ (by simp)] at hr
    obtain ⟨q, -, rfl⟩ := List.mem_map.1 hr
    exact ⟨_, e2 _⟩)
  have hopt : optimizeMaxEnt (normalSetup p).f (normalSetup p).names (normalSetup p).noneIdx (normalSetup p).fixed (absOf C)
      (runsFrom E C m [4] [(⊥, ⊤)]) blank = .ok (R q, d) := by
    unfold optimizeMaxEnt
    rw [hruns, s1]
    simp only [Except.ok_bind']
    have : applyCandidate (normalSetup p).f (normalSetup p).names (normalSetup p).noneIdx (normalSetup p).fixed (R q).x blank = .ok d := d1
    rw [this]
    rfl
  change SameRun _ _ (optimizeMaxEnt (normalSetup p).f (normalSetup p).names (normalSetup p).noneIdx (normalSetup p).fixed (absOf C)
      (runsFrom E C m [4] [(⊥, ⊤)]) blank) at hsame
  rw [hopt] at hsame
  cases hfin : MaxentRun.optimize (normalSetup p) m [(⊥, ⊤), (((eps : ℝ) : EReal), ⊤)] o with
  | error e => rw [hfin] at hsame; exact absurd hsame (by simp [SameRun])
  | ok ro =>
    refine ⟨p, E, C, m, o, (starts [4] [(⊥, ⊤)]).map R, ro.1, ro.2, hE, (fun h => by cases h), rfl, fun q r h => ?_,
      ⟨[], hruns, by simp⟩, by simp [starts], ⟨_, h3, hC3, _, e1 _⟩, hfin⟩
    rw [hrun q [(⊥, ⊤)]] at h
    cases h
    exact e1 _

end Verif.Props
