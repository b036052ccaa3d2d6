import Verif.Lemmas.Refit
import Verif.Props.NumFit

/-!
# C75: fits of an object that has been fitted before; C65: which samples a SkewNormal can be fitted to
-/

set_option linter.unusedSimpArgs false

namespace Verif.Props
open Verif Verif.Param Verif.Optim Verif.NumFit Verif.Spec Verif.Refit

/-- the families whose `_fit_mle` computes everything from the sample -/
def Stateless (f : Family) : Prop := way f = .direct ∨ way f = .closedStart ∨ way f = .boxStart

private theorem negll_same (k : Kit) (f : Family) (o o' : Obj) (hn : o.names = o'.names)
    (hx : o.names ∈ exactNames f) (s : List ℝ) : Refit.negll k f o s = Refit.negll k f o' s := by
  funext p
  have h := update_same f p o o' hn hx
  unfold Refit.negll
  cases h1 : update f p o <;> cases h2 : update f p o' <;> rw [h1, h2] at h <;> simp only [Same] at h
  · rw [h]
  · simp only [Except.ok_bind', Except.pure_eq]
    rw [h.1]

private theorem start_same (k : Kit) (f : Family) (v : Except Err (List ℝ)) (o o' : Obj) (hn : o.names = o'.names)
    (hx : o.names ∈ exactNames f) (s : List ℝ) :
    Same f (Refit.optimizeMl k f (fun o => do let v ← v; update f v o) o s)
      (Refit.optimizeMl k f (fun o => do let v ← v; update f v o) o' s) := by
  unfold Refit.optimizeMl
  cases v with
  | error e => rfl
  | ok v =>
    simp only [Except.ok_bind']
    have h := update_same f v o o' hn hx
    cases h1 : update f v o <;> cases h2 : update f v o' <;> rw [h1, h2] at h <;> simp only [Same] at h
    · rw [h]; rfl
    · rename_i a b
      have hna := update_names f v o a h1
      simp only [Except.ok_bind']
      rw [negll_same k f a b h.2.1 (by rw [hna]; exact hx) s, h.2.1, h.2.2]
      cases k.minimize (Refit.negll k f b s) (b.params.getD []) (k.box f b.names) with
      | error e => rfl
      | ok x =>
        simp only [Except.ok_bind']
        exact update_same f x a b h.2.1 (by rw [hna]; exact hx)

/-- C75: for the families whose estimates are computed from the sample alone, a fit gives the same result on any object
with the same parameter names, new or fitted before, or fails alike. -/
theorem refit_same_partial (k : Kit) (f : Family) (hw : Stateless f) (s : List ℝ) (o o' : Obj)
    (hn : o.names = o'.names) (hx : o.names ∈ exactNames f) :
    Same f (fitMle k f s o) (fitMle k f s o') := by
  unfold fitMle
  rcases hw with h | h | h <;> rw [h]
  · dsimp only
    cases k.est f s with
    | error e => rfl
    | ok v => exact update_same f v o o' hn hx
  · exact start_same k f _ o o' hn hx s
  · exact start_same k f _ o o' hn hx s

private theorem optimizeMl_names (k : Kit) (f : Family) (g : Obj → Except Err Obj)
    (hg : ∀ o o', g o = .ok o' → o'.names = o.names) (o o' : Obj) (s : List ℝ)
    (h : Refit.optimizeMl k f g o s = .ok o') : o'.names = o.names := by
  unfold Refit.optimizeMl at h
  cases h1 : g o with
  | error e => rw [h1] at h; simp [Except.error_bind'] at h
  | ok a =>
    rw [h1] at h
    simp only [Except.ok_bind'] at h
    cases h2 : k.minimize (Refit.negll k f a s) (a.params.getD []) (k.box f a.names) with
    | error e => rw [h2] at h; simp [Except.error_bind'] at h
    | ok x =>
      rw [h2] at h
      simp only [Except.ok_bind'] at h
      rw [update_names f x a o' h, hg o a h1]

private theorem stateless_names (k : Kit) (f : Family) (hw : Stateless f) (s : List ℝ) (o o' : Obj)
    (h : fitMle k f s o = .ok o') : o'.names = o.names := by
  have upd : ∀ (v : Except Err (List ℝ)) (o o' : Obj), (do let v ← v; update f v o) = .ok o' → o'.names = o.names := by
    intro v o o' h
    cases v with
    | error e => simp [Except.error_bind'] at h
    | ok v => exact update_names f v o o' h
  unfold fitMle at h
  rcases hw with hw | hw | hw <;> rw [hw] at h
  · exact upd _ _ _ h
  · exact optimizeMl_names k f _ (upd _) o o' s h
  · exact optimizeMl_names k f _ (upd _) o o' s h

/-- C75: for these families, fitting one object to one sample after the other records, for every sample, the parameters of
a fit of a new object to that sample alone. -/
theorem in_turn_partial (k : Kit) (f : Family) (hw : Stateless f) (o : Obj) (hx : o.names ∈ exactNames f)
    (slices : List (List ℝ)) :
    fitInTurn k f slices.length slices o =
      slices.mapM fun s => (fitMle k f s o).map fun d => d.params.getD [] := by
  have main : ∀ (l : List (List ℝ)) (o' : Obj), o'.names = o.names →
      fitInTurn k f l.length l o' = l.mapM fun s => (fitMle k f s o).map fun d => d.params.getD [] := by
    intro l
    induction l with
    | nil => intro o' _; rfl
    | cons s l ih =>
      intro o' hn
      have h := refit_same_partial k f hw s o' o hn (by rw [hn]; exact hx)
      rw [List.length_cons, fitInTurn, List.mapM_cons]
      cases h1 : fitMle k f s o' <;> cases h2 : fitMle k f s o <;> rw [h1, h2] at h <;> simp only [Same] at h
      · rw [h]; rfl
      · rename_i a b
        simp only [Except.ok_bind', Except.map]
        rw [ih a (by rw [stateless_names k f hw s o' a h1, hn]), h.2.2]
        rfl
  exact main slices o rfl

private theorem fit_is_update (k : Kit) (f : Family) (hw : Stateless f) (s : List ℝ) (o d : Obj)
    (h : fitMle k f s o = .ok d) : ∃ v a, a.names = o.names ∧ update f v a = .ok d := by
  have ml : ∀ (v : Except Err (List ℝ)),
      Refit.optimizeMl k f (fun o => do let v ← v; update f v o) o s = .ok d →
      ∃ v a, a.names = o.names ∧ update f v a = .ok d := by
    intro v h
    unfold Refit.optimizeMl at h
    cases v with
    | error e => simp [Except.error_bind'] at h
    | ok v =>
      simp only [Except.ok_bind'] at h
      cases h1 : update f v o with
      | error e => rw [h1] at h; simp [Except.error_bind'] at h
      | ok a =>
        rw [h1] at h
        simp only [Except.ok_bind'] at h
        cases h2 : k.minimize (Refit.negll k f a s) (a.params.getD []) (k.box f a.names) with
        | error e => rw [h2] at h; simp [Except.error_bind'] at h
        | ok x =>
          rw [h2] at h
          exact ⟨x, a, update_names f v o a h1, h⟩
  unfold fitMle at h
  rcases hw with hw | hw | hw <;> rw [hw] at h
  · dsimp only at h
    cases h1 : k.est f s with
    | error e => rw [h1] at h; simp [Except.error_bind'] at h
    | ok v => rw [h1] at h; exact ⟨v, o, rfl, h⟩
  · exact ml _ h
  · exact ml _ h

private theorem mapM_params (k : Kit) (f : Family) (o : Obj) (slices : List (List ℝ)) :
    ∀ ds, slices.mapM (fun s => fitMle k f s o) = .ok ds →
      (slices.mapM fun s => (fitMle k f s o).map fun d => d.params.getD []) = .ok (ds.map fun d => d.params.getD []) := by
  induction slices with
  | nil => intro ds h; simp at h; subst h; rfl
  | cons s l ih =>
    intro ds h
    rw [List.mapM_cons] at h ⊢
    cases h1 : fitMle k f s o with
    | error e => rw [h1] at h; simp [Except.error_bind'] at h
    | ok d =>
      rw [h1] at h
      simp only [Except.ok_bind'] at h
      cases h2 : l.mapM (fun s => fitMle k f s o) with
      | error e => rw [h2] at h; simp [Except.error_bind'] at h
      | ok t =>
        rw [h2] at h
        simp only [Except.ok_bind', Except.pure_eq, Except.ok.injEq] at h
        subst h
        rw [ih t h2]
        rfl

private theorem mapM_mem {α β : Type} (g : α → Except Err β) (l : List α) : ∀ ds, l.mapM g = .ok ds →
    ∀ d ∈ ds, ∃ s ∈ l, g s = .ok d := by
  induction l with
  | nil => intro ds h; simp at h; subst h; simp
  | cons s l ih =>
    intro ds h
    rw [List.mapM_cons] at h
    cases h1 : g s with
    | error e => rw [h1] at h; simp [Except.error_bind'] at h
    | ok d =>
      rw [h1] at h
      simp only [Except.ok_bind'] at h
      cases h2 : l.mapM g with
      | error e => rw [h2] at h; simp [Except.error_bind'] at h
      | ok t =>
        rw [h2] at h
        simp only [Except.ok_bind', Except.pure_eq, Except.ok.injEq] at h
        subst h
        intro x hx
        rcases List.mem_cons.1 hx with rfl | hx
        · exact ⟨s, by simp, h1⟩
        · obtain ⟨s', hs, hg⟩ := ih t h2 x hx
          exact ⟨s', by simp [hs], hg⟩

private theorem mapM_law (f : Family) (g : Obj → Kw) (o : Obj) (ds : List Obj)
    (h : ∀ d ∈ ds, ∃ c, parametrize f (g d) o = .ok c ∧ law f c = law f d) :
    ∃ cs, (ds.map g).mapM (fun kw => parametrize f kw o) = .ok cs ∧ cs.map (law f) = ds.map (law f) := by
  induction ds with
  | nil => exact ⟨[], rfl, rfl⟩
  | cons d l ih =>
    obtain ⟨c, h1, h2⟩ := h d (by simp)
    obtain ⟨cs, h3, h4⟩ := ih fun d hd => h d (by simp [hd])
    refine ⟨c :: cs, ?_, by simp [h2, h4]⟩
    rw [List.map_cons, List.mapM_cons, h1]
    simp only [Except.ok_bind']
    rw [h3]
    rfl

/-- C75: for these families, a vector-valued prior gets in every component the law fitted to the draws of that component
alone (`ds` are the separate fits of a new object). -/
theorem backfit_vector_partial (k : Kit) (f : Family) (hw : Stateless f) (o : Obj) (hx : o.names = firstNames f)
    (slices : List (List ℝ)) (ds : List Obj) (h : slices.mapM (fun s => fitMle k f s o) = .ok ds) :
    Gives (backfitVector k f slices.length slices o) fun cs => cs.map (law f) = ds.map (law f) := by
  have hx' : o.names ∈ exactNames f := by
    rw [hx]; cases f <;> simp [firstNames, exactNames]
  unfold backfitVector assemble
  rw [in_turn_partial k f hw o hx', mapM_params k f o slices ds h]
  simp only [Except.ok_bind']
  rw [if_neg (by
    rintro ⟨rfl, -⟩
    simp [Stateless, way] at hw), List.map_map]
  obtain ⟨cs, h1, h2⟩ := mapM_law f (byPosition f ∘ fun d => d.params.getD []) o ds (by
    intro d hd
    obtain ⟨s, -, hs⟩ := mapM_mem _ _ _ h d hd
    obtain ⟨v, a, ha, hu⟩ := fit_is_update k f hw s o d hs
    obtain ⟨o3, e1, e2, -⟩ := position_law f v a d (by rw [ha, hx]) hu o
    exact ⟨o3, e1, e2⟩)
  exact ⟨cs, h1, h2⟩

/-- C75: a variable with more than one dimension (fewer slices along its first dimension than components) cannot be
fitted, whatever the family. -/
theorem backfit_matrix_fails (k : Kit) (f : Family) (o : Obj) (slices : List (List ℝ)) (wanted : ℕ)
    (h : slices.length < wanted) : ∃ e, backfitVector k f wanted slices o = .error e := by
  have main : ∀ (l : List (List ℝ)) (n : ℕ) (o : Obj), l.length < n → ∃ e, fitInTurn k f n l o = .error e := by
    intro l
    induction l with
    | nil =>
      intro n o hn
      obtain ⟨m, rfl⟩ := Nat.exists_eq_succ_of_ne_zero (Nat.pos_iff_ne_zero.1 hn)
      exact ⟨_, rfl⟩
    | cons s l ih =>
      intro n o hn
      obtain ⟨m, rfl⟩ := Nat.exists_eq_succ_of_ne_zero (show n ≠ 0 by simp at hn; omega)
      rw [fitInTurn]
      cases h1 : fitMle k f s o with
      | error e => exact ⟨e, rfl⟩
      | ok a =>
        obtain ⟨e, he⟩ := ih m a (by simpa using hn)
        simp only [Except.ok_bind']
        rw [he]
        exact ⟨e, rfl⟩
  obtain ⟨e, he⟩ := main slices wanted o h
  exact ⟨e, by unfold backfitVector; rw [he]; rfl⟩

private theorem kvs_two (kvs : List (String × ℝ)) (a b : String) (h : kvs.map Prod.fst = [a, b]) :
    ∃ x y, kvs = [(a, x), (b, y)] := by
  match kvs, h with
  | [(k1, x), (k2, y)], h =>
    simp only [List.map_cons, List.map_nil, List.cons.injEq, and_true] at h
    obtain ⟨rfl, rfl⟩ := h
    exact ⟨x, y, rfl⟩

private theorem kvs_three (kvs : List (String × ℝ)) (a b c : String) (h : kvs.map Prod.fst = [a, b, c]) :
    ∃ x y z, kvs = [(a, x), (b, y), (c, z)] := by
  match kvs, h with
  | [(k1, x), (k2, y), (k3, z)], h =>
    simp only [List.map_cons, List.map_nil, List.cons.injEq, and_true] at h
    obtain ⟨rfl, rfl, rfl⟩ := h
    exact ⟨x, y, z, rfl⟩

private theorem kvs_four (kvs : List (String × ℝ)) (a b c d : String) (h : kvs.map Prod.fst = [a, b, c, d]) :
    ∃ x y z w, kvs = [(a, x), (b, y), (c, z), (d, w)] := by
  match kvs, h with
  | [(k1, x), (k2, y), (k3, z), (k4, w)], h =>
    simp only [List.map_cons, List.map_nil, List.cons.injEq, and_true] at h
    obtain ⟨rfl, rfl, rfl, rfl⟩ := h
    exact ⟨x, y, z, w, rfl⟩

private theorem simpleParam_names (t : SimpleFam) (kw : Kw) (o : Obj) : (simpleParam t kw o).names = t.args := by
  unfold simpleParam simpleUpdate
  dsimp only
  split_ifs <;> simp [setAll_names']

private theorem param_names (f : Family) (hw : way f = .numericStart) (kvs : List (String × ℝ))
    (hx : kvs.map Prod.fst ∈ exactNames f) (o o' : Obj) (h : parametrize f (kwCall kvs) o = .ok o') :
    o'.names = kvs.map Prod.fst := by
  cases f with
  | simple s =>
    rw [names_simple hx]
    simp only [parametrize, Except.ok.injEq] at h
    rw [← h]
    exact simpleParam_names _ _ _
  | kumaraswamy =>
    simp only [exactNames, List.mem_cons, List.not_mem_nil, or_false] at hx
    rw [hx]
    obtain ⟨x, y, rfl⟩ := kvs_two kvs _ _ hx
    simp only [parametrize, kumaraswamyParam] at h
    split_ifs at h <;>
      (simp only [Except.ok.injEq] at h
       subst h
       rfl)
  | skewNormal =>
    simp only [exactNames, List.mem_cons, List.not_mem_nil, or_false] at hx
    rw [hx]
    obtain ⟨x, y, z, rfl⟩ := kvs_three kvs _ _ _ hx
    simp [parametrize, skewNormalParam, kwCall, List.lookup, allNotNone, skewNormalUpdate, Obj.setAll, Obj.set] at h
    rw [← h]
  | skewStudentT =>
    simp only [exactNames, List.mem_cons, List.not_mem_nil, or_false] at hx
    rw [hx]
    obtain ⟨x, y, z, w, rfl⟩ := kvs_four kvs _ _ _ _ hx
    simp [parametrize, skewStudentTParam, kwCall, List.lookup, allNotNone, skewStudentTUpdate, Obj.setAll, Obj.set] at h
    rw [← h]
  | negativeBinomial =>
    simp only [exactNames, List.mem_cons, List.not_mem_nil, or_false] at hx
    rcases hx with hx | hx <;> rw [hx] <;> obtain ⟨x, y, rfl⟩ := kvs_two kvs _ _ hx
    · simp [parametrize, nbParam, kwCall, List.lookup, allNotNone, anyNotNone, nbUpdate, Obj.setAll, Obj.set] at h
      rw [← h]
    · simp [parametrize, nbParam, kwCall, List.lookup, allNotNone, anyNotNone, nbUpdate, Obj.setAll, Obj.set] at h
      cases h1 : nbFromNP y x <;> rw [h1] at h <;> simp [Except.error_bind', Except.ok_bind'] at h <;> rw [← h]
  | ziNegativeBinomial =>
    simp only [exactNames, List.mem_cons, List.not_mem_nil, or_false] at hx
    rcases hx with hx | hx <;> rw [hx] <;> obtain ⟨x, y, z, rfl⟩ := kvs_three kvs _ _ _ hx
    · simp [parametrize, zinbParam, kwCall, List.lookup, allNotNone, anyNotNone, zinbUpdate, Obj.setAll, Obj.set] at h
      rw [← h]
    · simp [parametrize, zinbParam, kwCall, List.lookup, allNotNone, anyNotNone, zinbUpdate, Obj.setAll, Obj.set] at h
      cases h1 : nbFromNP z y <;> rw [h1] at h <;> simp [Except.error_bind', Except.ok_bind'] at h <;> rw [← h]
  | _ => simp [way] at hw

private theorem candidate_names (f : Family) (hw : way f = .numericStart) (names : List String)
    (hx : names ∈ exactNames f) (N : List ℕ) (fx x : List ℝ) (o o' : Obj)
    (h : applyCandidate f names N fx x o = .ok o') : o'.names = names := by
  unfold applyCandidate at h
  cases h1 : getParams names x N fx with
  | error e => rw [h1] at h; simp [Except.error_bind'] at h
  | ok kvs =>
    rw [h1] at h
    have hk := getParamsFrom_names _ _ _ _ _ _ h1
    rw [← hk]
    exact param_names f hw kvs (by rw [hk]; exact hx) o o' h

theorem meanSigma_names (f : Family) (hw : way f = .numericStart) (opt : Optimiser)
    (ms : List (Option ℝ) → ℝ × ℝ) (m sd : ℝ) (st : List ℝ) (box : Box) (o : Obj) (hx : o.names ∈ exactNames f)
    (r : List ℝ × Obj) (h : optimizeMeanSigma opt f ms m sd st box o = .ok r) : r.2.names = o.names := by
  unfold optimizeMeanSigma at h
  dsimp only at h
  cases h1 : update f st o with
  | error e => rw [h1] at h; simp [Except.error_bind'] at h
  | ok a =>
    rw [h1] at h
    simp only [Except.ok_bind'] at h
    have hn := update_names f st o a h1
    unfold fit at h
    dsimp only at h
    cases h2 : opt ((getFixedParams o).1.map fun i => ((a.params.getD [])[i]?).join)
        ((getFixedParams o).1.filterMap fun i => box[i]?) with
    | error e => rw [h2] at h; simp [Except.error_bind'] at h
    | ok s =>
      rw [h2] at h
      simp only [Except.ok_bind'] at h
      cases h3 : run f a.names (getFixedParams o).1 (getFixedParams o).2 (meanSigmaResidual ms m sd) s a with
      | error e => rw [h3] at h; simp [Except.error_bind'] at h
      | ok xo =>
        rw [h3] at h
        simp only [Except.ok_bind'] at h
        cases h4 : applyCandidate f a.names (getFixedParams o).1 (getFixedParams o).2 xo.1 xo.2 with
        | error e => rw [h4] at h; simp [Except.error_bind'] at h
        | ok o' =>
          rw [h4] at h
          simp only [Except.ok_bind', Except.pure_eq, Except.ok.injEq] at h
          rw [← h]
          simp only
          rw [candidate_names f hw a.names (by rw [hn]; exact hx) _ _ _ _ _ h4, hn]

/-- the numerical start of `_fit_mle` -/
private noncomputable def numStart (k : Kit) (f : Family) (s : List ℝ) (o : Obj) : Except Err Obj := do
  let (_, o) ← optimizeMeanSigma k.leastSquares f (k.meanStd f) (mean s) (std s) (k.start f) (k.box f o.names) o
  return o

private theorem numStart_names (k : Kit) (f : Family) (hw : way f = .numericStart) (s : List ℝ) (o o' : Obj)
    (hx : o.names ∈ exactNames f) (h : numStart k f s o = .ok o') : o'.names = o.names := by
  unfold numStart at h
  cases h1 : optimizeMeanSigma k.leastSquares f (k.meanStd f) (mean s) (std s) (k.start f) (k.box f o.names) o with
  | error e => rw [h1] at h; simp [Except.error_bind'] at h
  | ok r =>
    rw [h1] at h
    simp only [Except.ok_bind', Except.pure_eq, Except.ok.injEq] at h
    rw [← h]
    exact meanSigma_names f hw _ _ _ _ _ _ o hx r h1

private theorem ml_complete (k : Kit) (f : Family) (hw : way f = .numericStart) (s : List ℝ) (o d : Obj)
    (hx : o.names ∈ exactNames f) (h : Refit.optimizeMl k f (numStart k f s) o s = .ok d) :
    d.names = o.names ∧ ∀ n ∈ d.names, (d.attr n).isSome := by
  unfold Refit.optimizeMl at h
  cases h1 : numStart k f s o with
  | error e => rw [h1] at h; simp [Except.error_bind'] at h
  | ok a =>
    rw [h1] at h
    simp only [Except.ok_bind'] at h
    have hn := numStart_names k f hw s o a hx h1
    cases h2 : k.minimize (Refit.negll k f a s) (a.params.getD []) (k.box f a.names) with
    | error e => rw [h2] at h; simp [Except.error_bind'] at h
    | ok x =>
      rw [h2] at h
      simp only [Except.ok_bind'] at h
      exact ⟨(update_names f x a d h).trans hn, update_complete f hw x a d (by rw [hn]; exact hx) h⟩

private theorem fit_complete (k : Kit) (f : Family) (hw : way f = .numericStart) (s : List ℝ) (o d : Obj)
    (hx : o.names ∈ exactNames f) (h : fitMle k f s o = .ok d) :
    d.names = o.names ∧ ∀ n ∈ d.names, (d.attr n).isSome := by
  unfold fitMle at h
  rw [hw] at h
  dsimp only at h
  by_cases hf : f = .skewNormal
  · rw [if_pos hf] at h
    cases h1 : skewAlpha s with
    | none => rw [h1] at h; simp [Except.error_bind'] at h
    | some a =>
      rw [h1] at h
      simp only [Except.ok_bind'] at h
      exact ml_complete k f hw s (o.set "alpha" (some a)) d hx h
  · rw [if_neg hf] at h
    simp only [Except.ok_bind'] at h
    exact ml_complete k f hw s o d hx h

private theorem free_none (o : Obj) (hc : ∀ n ∈ o.names, (o.attr n).isSome) : (getFixedParams o).1 = [] := by
  rw [getFixedParams_eq]
  simp only [List.map_eq_nil_iff, List.filter_eq_nil_iff]
  intro ni hni
  have := hc ni.1 (List.fst_mem_of_mem_zipIdx hni)
  cases h : o.attr ni.1 <;> simp_all

/-- C75: the families that start from a numerical fit of mean and deviation cannot be fitted to a sample when all their
parameters have values: `least_squares` is called without bounds for any parameter and raises.  (`start` is the table of
default values.) -/
theorem complete_refit_fails (k : Kit) (hls : ∀ i, k.leastSquares i [] = .error .valueError) (f : Family)
    (hw : way f = .numericStart) (hst : ∀ o, ∃ o', update f (k.start f) o = .ok o') (s : List ℝ) (o : Obj)
    (hc : ∀ n ∈ o.names, (o.attr n).isSome) : fitMle k f s o = .error .valueError := by
  have main : ∀ o : Obj, (∀ n ∈ o.names, (o.attr n).isSome) →
      Refit.optimizeMl k f (numStart k f s) o s = .error .valueError := by
    intro o hc
    obtain ⟨a, ha⟩ := hst o
    unfold Refit.optimizeMl numStart optimizeMeanSigma
    dsimp only
    rw [ha]
    simp only [Except.ok_bind']
    unfold fit
    dsimp only
    rw [free_none o hc]
    simp only [List.map_nil, List.filterMap_nil]
    rw [hls]
    rfl
  unfold fitMle
  rw [hw]
  dsimp only
  by_cases hf : f = .skewNormal
  · rw [if_pos hf]
    cases h1 : skewAlpha s with
    | none => rfl
    | some a =>
      simp only [Except.ok_bind']
      refine main (o.set "alpha" (some a)) ?_
      intro n hn
      by_cases hna : n = "alpha"
      · simp [Obj.set, hna]
      · have := hc n hn
        simpa [Obj.set, Function.update, hna] using this
  · rw [if_neg hf]
    simp only [Except.ok_bind']
    exact main o hc

/-- C75: for these families a second fit of the same object fails, whatever the samples are. -/
theorem second_fit_fails (k : Kit) (hls : ∀ i, k.leastSquares i [] = .error .valueError) (f : Family)
    (hw : way f = .numericStart) (hst : ∀ o, ∃ o', update f (k.start f) o = .ok o') (s s' : List ℝ) (o d : Obj)
    (hx : o.names ∈ exactNames f) (h : fitMle k f s o = .ok d) : fitMle k f s' d = .error .valueError :=
  complete_refit_fails k hls f hw hst s' d (fit_complete k f hw s o d hx h).2

/-- C75: for these families a vector-valued prior with two or more components is never fitted; when its first component
can be, the error is the one of `least_squares`. -/
theorem backfit_vector_fails (k : Kit) (hls : ∀ i, k.leastSquares i [] = .error .valueError) (f : Family)
    (hw : way f = .numericStart) (hst : ∀ o, ∃ o', update f (k.start f) o = .ok o') (o : Obj)
    (hx : o.names ∈ exactNames f) (s s' : List ℝ) (rest : List (List ℝ)) (n : ℕ) :
    (∃ e, backfitVector k f (n + 2) (s :: s' :: rest) o = .error e) ∧
    ∀ d, fitMle k f s o = .ok d → backfitVector k f (n + 2) (s :: s' :: rest) o = .error .valueError := by
  unfold backfitVector
  rw [fitInTurn]
  cases h : fitMle k f s o with
  | error e => exact ⟨⟨e, rfl⟩, fun d hd => nomatch hd⟩
  | ok d =>
    have h2 := second_fit_fails k hls f hw hst s s' o d hx h
    simp only [Except.ok_bind']
    rw [fitInTurn, h2]
    exact ⟨⟨_, rfl⟩, fun _ _ => rfl⟩

private theorem numeric_is_update (k : Kit) (f : Family) (hw : way f = .numericStart) (s : List ℝ) (o d : Obj)
    (hx : o.names ∈ exactNames f) (h : fitMle k f s o = .ok d) : ∃ v a, a.names = o.names ∧ update f v a = .ok d := by
  have main : ∀ o1 : Obj, o1.names = o.names → Refit.optimizeMl k f (numStart k f s) o1 s = .ok d →
      ∃ v a, a.names = o.names ∧ update f v a = .ok d := by
    intro o1 hn1 h
    unfold Refit.optimizeMl at h
    cases h1 : numStart k f s o1 with
    | error e => rw [h1] at h; simp [Except.error_bind'] at h
    | ok a =>
      rw [h1] at h
      simp only [Except.ok_bind'] at h
      have hn := numStart_names k f hw s o1 a (by rw [hn1]; exact hx) h1
      cases h2 : k.minimize (Refit.negll k f a s) (a.params.getD []) (k.box f a.names) with
      | error e => rw [h2] at h; simp [Except.error_bind'] at h
      | ok x =>
        rw [h2] at h
        exact ⟨x, a, hn.trans hn1, h⟩
  unfold fitMle at h
  rw [hw] at h
  dsimp only at h
  by_cases hf : f = .skewNormal
  · rw [if_pos hf] at h
    cases h1 : skewAlpha s with
    | none => rw [h1] at h; simp [Except.error_bind'] at h
    | some a =>
      rw [h1] at h
      simp only [Except.ok_bind'] at h
      exact main (o.set "alpha" (some a)) rfl h
  · rw [if_neg hf] at h
    simp only [Except.ok_bind'] at h
    exact main o rfl h

private theorem fitRows_mapM (k : Kit) (f : Family) (o : Obj) (rows : List (List ℝ)) :
    fitRows k f o rows = rows.mapM fun s => fitMle k f s o := by
  induction rows with
  | nil => rfl
  | cons s l ih => rw [fitRows, List.mapM_cons, ih]

/-- C75: a fit of a two-dimensional sample works on copies: every component has the law of a fit of the object itself to
that row, for the families above and (Kumaraswamy apart, see `kumaraswamy_rows_fail`) for those with a numerical start. -/
theorem rows_fit (k : Kit) (f : Family) (hw : Stateless f ∨ way f = .numericStart) (hf : f ≠ .kumaraswamy)
    (o : Obj) (hx : o.names = firstNames f) (rows : List (List ℝ)) (ds : List Obj)
    (h : rows.mapM (fun s => fitMle k f s o) = .ok ds) :
    Gives (fitRowsVector k f rows o) fun cs => cs.map (law f) = ds.map (law f) := by
  have hx' : o.names ∈ exactNames f := by
    rw [hx]; cases f <;> simp [firstNames, exactNames]
  unfold fitRowsVector assemble
  rw [fitRows_mapM, h]
  simp only [Except.ok_bind']
  rw [if_neg (fun h => hf h.1)]
  obtain ⟨cs, h1, h2⟩ := mapM_law f Obj.paramsDict o ds (by
    intro d hd
    obtain ⟨s, -, hs⟩ := mapM_mem _ _ _ h d hd
    obtain ⟨v, a, ha, hu⟩ : ∃ v a, a.names = o.names ∧ update f v a = .ok d := by
      rcases hw with hw | hw
      · exact fit_is_update k f hw s o d hs
      · exact numeric_is_update k f hw s o d hx' hs
    obtain ⟨o3, e1, e2, -⟩ := name_law f v a d (by rw [ha, hx]) hu o
    exact ⟨o3, e1, e2⟩)
  exact ⟨cs, h1, h2⟩

/-- C75: for Kumaraswamy a two-dimensional sample with two or more rows is never fitted. -/
theorem kumaraswamy_rows_fail (k : Kit) (o : Obj) (s s' : List ℝ) (rest : List (List ℝ)) :
    ∃ e, fitRowsVector k .kumaraswamy (s :: s' :: rest) o = .error e := by
  unfold fitRowsVector
  cases h : fitRows k .kumaraswamy o (s :: s' :: rest) with
  | error e => exact ⟨e, rfl⟩
  | ok ds =>
    refine ⟨.valueError, ?_⟩
    have hl : 1 < ds.length := by
      rw [fitRows] at h
      cases h1 : fitMle k .kumaraswamy s o with
      | error e => rw [h1] at h; simp [Except.error_bind'] at h
      | ok d1 =>
        rw [h1] at h
        simp only [Except.ok_bind', fitRows] at h
        cases h2 : fitMle k .kumaraswamy s' o with
        | error e => rw [h2] at h; simp [Except.error_bind'] at h
        | ok d2 =>
          rw [h2] at h
          simp only [Except.ok_bind'] at h
          cases h3 : fitRows k .kumaraswamy o rest with
          | error e => rw [h3] at h; simp [Except.error_bind'] at h
          | ok t =>
            rw [h3] at h
            simp only [Except.ok_bind', Except.pure_eq, Except.ok.injEq] at h
            rw [← h]
            simp
    simp only [Except.ok_bind', assemble]
    rw [if_pos ⟨trivial, by simpa using hl⟩]

/-! ## SkewNormal -/

private theorem skewAlpha_none (s : List ℝ) (h : central 2 s = 0 ∨ central 2 s ^ 3 ≤ central 3 s ^ 2) :
    skewAlpha s = none := by
  unfold skewAlpha skew
  split_ifs with h0
  · rfl
  · rcases h with h | h
    · exact absurd h h0
    · have hpos : 0 < central 2 s := by
        have : 0 ≤ central 2 s := by
          unfold central
          apply div_nonneg _ (Nat.cast_nonneg _)
          apply List.sum_nonneg
          intro a ha
          obtain ⟨b, -, rfl⟩ := List.mem_map.1 ha
          positivity
        exact lt_of_le_of_ne this (Ne.symm h0)
      have hsq : (central 3 s / (central 2 s * Real.sqrt (central 2 s))) ^ 2 = central 3 s ^ 2 / central 2 s ^ 3 := by
        rw [div_pow, mul_pow, Real.sq_sqrt hpos.le]
        ring_nf
      dsimp only
      rw [if_neg]
      rw [hsq, not_lt, le_div_iff₀ (by positivity), one_mul]
      exact h

private theorem skewAlpha_some (s : List ℝ) (h0 : central 2 s ≠ 0) (h : central 3 s ^ 2 < central 2 s ^ 3) :
    (skewAlpha s).isSome := by
  unfold skewAlpha skew
  rw [if_neg h0]
  have hpos : 0 < central 2 s := by
    have : 0 < central 2 s ^ 3 := lt_of_le_of_lt (sq_nonneg _) h
    exact (Odd.pow_pos_iff (by decide)).1 this
  have hsq : (central 3 s / (central 2 s * Real.sqrt (central 2 s))) ^ 2 = central 3 s ^ 2 / central 2 s ^ 3 := by
    rw [div_pow, mul_pow, Real.sq_sqrt hpos.le]
    ring_nf
  dsimp only
  rw [if_pos]
  · rfl
  · rw [hsq, div_lt_one (by positivity)]
    exact h

/-- C65: a SkewNormal is not fitted to a sample whose skewness is one or more in absolute value (`m₃² ≥ m₂³`), or that
has no spread. -/
theorem skewed_sample_fails (k : Kit) (s : List ℝ) (o : Obj)
    (h : central 2 s = 0 ∨ central 2 s ^ 3 ≤ central 3 s ^ 2) : fitMle k .skewNormal s o = .error .valueError := by
  unfold fitMle
  simp only [way, if_true]
  rw [skewAlpha_none s h]
  rfl

/-- every vector asked for, and the final one, has `n` entries -/
inductive Sized (n : ℕ) : Strategy → Prop
  | stop {x} : x.length = n → Sized n (.stop x)
  | ask {x next} : x.length = n → (∀ r, Sized n (next r)) → Sized n (.ask x next)

/-- a new SkewNormal whose `alpha` has been set -/
private noncomputable def withAlpha (a : ℝ) : Obj := (Obj.set
  { attr := fun _ => none, names := ["mu", "sigma", "alpha"], params := none, frozen := false } "alpha" (some a))

private theorem withAlpha_free (a : ℝ) : getFixedParams (withAlpha a) = ([0, 1], [a]) := by
  simp [getFixedParams, withAlpha, splitStep, Obj.set, Function.update]

private theorem skew_apply (a : ℝ) (x : List ℝ) (hx : x.length = 2) (o : Obj) :
    ∃ o', applyCandidate .skewNormal ["mu", "sigma", "alpha"] [0, 1] [a] x o = .ok o' := by
  obtain ⟨p, q, rfl⟩ := List.length_eq_two.1 hx
  simp [applyCandidate, getParams, getParamsFrom, Except.map, parametrize, skewNormalParam, kwCall, List.lookup,
    allNotNone]

private theorem skew_run (a : ℝ) (res : List (Option ℝ) → List ℝ) (t : Strategy) (ht : Sized 2 t) : ∀ o : Obj,
    ∃ x o', x.length = 2 ∧ run .skewNormal ["mu", "sigma", "alpha"] [0, 1] [a] res t o = .ok (x, o') := by
  induction ht with
  | stop h => intro o; exact ⟨_, o, h, rfl⟩
  | ask h _ ih =>
    intro o
    obtain ⟨o1, h1⟩ := skew_apply a _ h o
    unfold run
    rw [h1]
    simp only [Except.ok_bind']
    exact ih _ o1

/-- C65: with optimisers that always end, a new SkewNormal is fitted to a sample exactly when the sample has spread and
its skewness is below one in absolute value. -/
theorem skew_fit_iff (k : Kit) (hls : ∀ i b, b ≠ [] → ∃ t, k.leastSquares i b = .ok t ∧ Sized b.length t)
    (hmin : ∀ g i b, ∃ x, k.minimize g i b = .ok x ∧ x.length = b.length) (hst : (k.start .skewNormal).length = 3)
    (hbox : ∀ names, (k.box .skewNormal names).length = 3) (s : List ℝ) :
    Gives (construct .skewNormal fun _ => none) (fun o => (∃ d, fitMle k .skewNormal s o = .ok d) ↔
      central 2 s ≠ 0 ∧ central 3 s ^ 2 < central 2 s ^ 3) := by
  simp only [construct, parametrize, skewNormalParam, allNotNone, List.all_cons, List.all_nil, Option.isSome_none,
    Bool.false_and, Bool.false_eq_true, if_false, Except.pure_eq, Except.ok_bind', gives_ok]
  constructor
  · rintro ⟨d, hd⟩
    by_contra hc
    have : central 2 s = 0 ∨ central 2 s ^ 3 ≤ central 3 s ^ 2 := by
      by_cases h0 : central 2 s = 0
      · exact Or.inl h0
      · right
        by_contra hlt
        exact hc ⟨h0, not_le.1 hlt⟩
    rw [skewed_sample_fails k s _ this] at hd
    simp at hd
  · rintro ⟨h0, h⟩
    obtain ⟨a, ha⟩ := Option.isSome_iff_exists.1 (skewAlpha_some s h0 h)
    have key : ∃ d, Refit.optimizeMl k .skewNormal (numStart k .skewNormal s) (withAlpha a) s = .ok d := by
      have upd : ∀ (v : List ℝ) (o : Obj), v.length = 3 → ∃ o', update .skewNormal v o = .ok o' := by
        intro v o hv
        obtain ⟨p, q, r, rfl⟩ := List.length_eq_three.1 hv
        exact ⟨_, rfl⟩
      obtain ⟨o1, h1⟩ := upd _ (withAlpha a) hst
      have hn1 : o1.names = ["mu", "sigma", "alpha"] := update_names _ _ _ _ h1
      set b := k.box .skewNormal (withAlpha a).names with hb
      have hb3 : b.length = 3 := hbox _
      have hbl : ([0, 1].filterMap fun i => b[i]?).length = 2 := by
        obtain ⟨p, q, r, hpq⟩ := List.length_eq_three.1 hb3
        rw [hpq]; rfl
      obtain ⟨t, h2, h3⟩ := hls ([0, 1].map fun i => ((o1.params.getD [])[i]?).join) ([0, 1].filterMap fun i => b[i]?)
        (by intro he; rw [he] at hbl; simp at hbl)
      rw [hbl] at h3
      obtain ⟨x, o2, hx, h4⟩ := skew_run a (meanSigmaResidual (k.meanStd .skewNormal) (mean s) (std s)) t h3 o1
      obtain ⟨o3, h5⟩ := skew_apply a x hx o2
      obtain ⟨y, h6, h7⟩ := hmin (Refit.negll k .skewNormal o3 s) (o3.params.getD []) (k.box .skewNormal o3.names)
      obtain ⟨d, h8⟩ := upd y o3 (by rw [h7]; exact hbox _)
      refine ⟨d, ?_⟩
      unfold Refit.optimizeMl numStart optimizeMeanSigma
      dsimp only
      rw [withAlpha_free, h1]
      simp only [Except.ok_bind']
      unfold fit
      dsimp only
      rw [hn1, ← hb, h2]
      simp only [Except.ok_bind']
      rw [h4]
      simp only [Except.ok_bind']
      rw [h5]
      simp only [Except.ok_bind', Except.pure_eq]
      rw [h6]
      simp only [Except.ok_bind']
      exact h8
    obtain ⟨d, hd⟩ := key
    refine ⟨d, ?_⟩
    unfold fitMle
    simp only [way, if_true]
    rw [ha]
    have hattr : (blank.setAll [("mu", none), ("sigma", none), ("alpha", none)]).attr = fun _ => none := by
      funext n
      simp [Obj.setAll, Obj.set, Function.update, blank]
    rw [hattr]
    exact hd

/-- optimisers that stop at the lower bounds (zero where there is none), and tables for the examples -/
private noncomputable def demo : Kit where
  est := fun _ s => .ok [mean s, std s]
  mom := fun _ _ _ m sd => .ok [m, sd]
  meanStd := fun _ _ => (0, 1)
  start := fun f => if f = .skewNormal then [0, 1, 0] else [1, 1]
  box := fun f _ => if f = .skewNormal then [(⊥, ⊤), (((eps : ℝ) : EReal), ⊤), (⊥, ⊤)] else [(⊥, ⊤), (⊥, ⊤)]
  logpdf := fun _ _ x => x
  leastSquares := fun _ b => if b = [] then .error .valueError else .ok (.stop (b.map fun i => i.1.toReal))
  minimize := fun _ _ b => .ok (b.map fun i => i.1.toReal)

private theorem foldr_least (s : List ℝ) (x : ℝ) (hx : x ∈ s) (h : ∀ y ∈ s, x ≤ y) :
    s.foldr min (s.headD 0) = x := by
  have key : ∀ (l : List ℝ) (a : ℝ), x ≤ a → (∀ y ∈ l, x ≤ y) → x ∈ l ∨ a = x → l.foldr min a = x := by
    intro l
    induction l with
    | nil => rintro a - - (h | h)
             · simp at h
             · exact h
    | cons b l ih =>
      intro a ha hl hm
      have hb := hl b (by simp)
      have hl' : ∀ y ∈ l, x ≤ y := fun y hy => hl y (by simp [hy])
      simp only [List.foldr_cons]
      have hge : ∀ (l : List ℝ) (a : ℝ), x ≤ a → (∀ y ∈ l, x ≤ y) → x ≤ l.foldr min a := by
        intro l
        induction l with
        | nil => intro a h _; exact h
        | cons c l ih => intro a h hl; exact le_min (hl c (by simp)) (ih a h fun y hy => hl y (by simp [hy]))
      rcases hm with hm | hm
      · rcases List.mem_cons.1 hm with rfl | hm
        · exact min_eq_left (hge l a ha hl')
        · rw [ih a ha hl' (Or.inl hm), min_eq_right hb]
      · rw [ih a ha hl' (Or.inr hm), min_eq_right hb]
  refine key s _ ?_ h (Or.inl hx)
  cases s with
  | nil => simp at hx
  | cons b l => exact h b (by simp)

private theorem foldr_greatest (s : List ℝ) (x : ℝ) (hx : x ∈ s) (h : ∀ y ∈ s, y ≤ x) :
    s.foldr max (s.headD 0) = x := by
  have := foldr_least (s.map (-·)) (-x) (by simpa using hx) (by
    intro y hy
    obtain ⟨z, hz, rfl⟩ := List.mem_map.1 hy
    exact neg_le_neg (h z hz))
  have hneg : ∀ (l : List ℝ) (a : ℝ), (l.map (-·)).foldr min (-a) = -(l.foldr max a) := by
    intro l a
    induction l with
    | nil => rfl
    | cons b l ih => simp only [List.map_cons, List.foldr_cons, ih, min_neg_neg]
  cases s with
  | nil => simp at hx
  | cons b l =>
    have e : ((b :: l).map (-·)).headD 0 = -((b :: l).headD 0) := rfl
    rw [e, hneg] at this
    exact neg_injective this

/-- C75: a BetaScaled or TruncatedNormal is fitted between the least and the greatest value of the sample: the start of
the search is the moment fit with these two as bounds, and if that fails so does the fit. -/
theorem box_fit_extremes (k : Kit) (f : Family) (hf : f = .betaScaled ∨ f = .simple .truncatedNormal) (s : List ℝ)
    (lo hi : ℝ) (hlo : lo ∈ s ∧ ∀ y ∈ s, lo ≤ y) (hhi : hi ∈ s ∧ ∀ y ∈ s, y ≤ hi) (o : Obj) :
    (∀ e, k.mom f (some (lo, hi)) none (mean s) (std s) = .error e → fitMle k f s o = .error e) ∧
    (∀ v o₁, k.mom f (some (lo, hi)) none (mean s) (std s) = .ok v → update f v o = .ok o₁ →
      (∀ g i b, k.minimize g i b = .ok (i.map fun x => x.getD 0)) →
      fitMle k f s o = update f ((o₁.params.getD []).map fun x => x.getD 0) o₁) := by
  have hw : way f = .boxStart := by rcases hf with rfl | rfl <;> rfl
  have h1 := foldr_least s lo hlo.1 hlo.2
  have h2 := foldr_greatest s hi hhi.1 hhi.2
  constructor
  · intro e he
    unfold fitMle
    rw [hw]
    dsimp only
    rw [h1, h2, he]
    rfl
  · intro v o₁ hv ho hm
    unfold fitMle
    rw [hw]
    dsimp only
    rw [h1, h2, hv]
    unfold Refit.optimizeMl
    simp only [Except.ok_bind', ho, hm]

/-- C75: a StudentT or HalfStudentT is fitted alike on objects with the same parameter names and the same `nu`. -/
theorem refit_same_nu (k : Kit) (f : Family) (hf : f = .studentT ∨ f = .halfStudentT) (s : List ℝ) (o o' : Obj)
    (hn : o.names = o'.names) (hx : o.names ∈ exactNames f) (hnu : o.attr "nu" = o'.attr "nu") :
    Same f (fitMle k f s o) (fitMle k f s o') := by
  have hw : way f = .nuStart := by rcases hf with rfl | rfl <;> rfl
  have e : ∀ p : Obj, fitMle k f s p = Refit.optimizeMl k f (fun q => do
      let v ← k.mom f none (p.attr "nu") (mean s) (std s)
      update f v q) p s := by
    intro p
    unfold fitMle
    rw [hw]
    rfl
  rw [e, e, hnu]
  exact start_same k f _ o o' hn hx s

/-- C75, what fails: with another `nu` the fit of a StudentT starts elsewhere, and an optimiser that stops where it starts
leaves another distribution. -/
theorem refit_nu_matters : ∃ (k : Kit) (s : List ℝ) (o o' d d' : Obj), o.names = o'.names ∧
    o.names ∈ exactNames .studentT ∧ fitMle k .studentT s o = .ok d ∧ fitMle k .studentT s o' = .ok d' ∧
    d.params ≠ d'.params := by
  let k : Kit := { demo with
    mom := fun _ _ nu m sd => .ok [nu.getD 100, m, sd]
    minimize := fun _ i _ => .ok (i.map fun x => x.getD 0) }
  let obj : ℝ → Obj := fun nu => { attr := fun a => if a = "nu" then some nu else none, names := ["nu", "mu", "sigma"],
                                   params := none, frozen := false }
  refine ⟨k, [0], obj 3, obj 4, studentTUpdate 3 0 0 (studentTUpdate 3 0 0 (obj 3)), studentTUpdate 4 0 0 (studentTUpdate 4 0 0 (obj 4)), rfl, ?_, ?_, ?_, ?_⟩
  · simp [exactNames, obj]
  · simp [fitMle, way, Refit.optimizeMl, k, obj, mean, std, central, update, studentTUpdate, Obj.setAll, Obj.set]
  · simp [fitMle, way, Refit.optimizeMl, k, obj, mean, std, central, update, studentTUpdate, Obj.setAll, Obj.set]
  · simp [studentTUpdate, obj, Obj.setAll, Obj.set]

/-- the sample `0, 1` has no skewness -/
private theorem sym_sample : central 2 [0, 1] = 1 / 4 ∧ central 3 [0, 1] = 0 := by
  constructor <;> norm_num [central, mean]

/-- the sample `0, 0, 0, 0, 1` has skewness 3/2 -/
private theorem skew_sample : central 2 [0, 0, 0, 0, 1] ^ 3 ≤ central 3 [0, 0, 0, 0, 1] ^ 2 := by
  norm_num [central, mean]

private theorem demo_skew : ∀ i b, b ≠ [] → ∃ t, demo.leastSquares i b = .ok t ∧ Sized b.length t :=
  fun _ b hb => ⟨_, if_neg hb, .stop (by simp)⟩

/-- a Normal fitted twice, to different samples -/
example : Same .normal (fitMle demo .normal [0, 1]
      { attr := fun _ => none, names := ["mu", "sigma"], params := none, frozen := false })
    (fitMle demo .normal [0, 1]
      { attr := fun _ => some 7, names := ["mu", "sigma"], params := some [some 7, some 7], frozen := true }) :=
  refit_same_partial demo .normal (Or.inl rfl) _ _ _ rfl (by simp [exactNames])

/-- a vector-valued Normal prior -/
example : Gives (backfitVector demo .normal 2 [[0, 1], [3, 3]]
      { attr := fun _ => none, names := ["mu", "sigma"], params := none, frozen := false })
    fun cs => cs.length = 2 := by
  obtain ⟨cs, h1, h2⟩ := backfit_vector_partial demo .normal (Or.inl rfl)
    { attr := fun _ => none, names := ["mu", "sigma"], params := none, frozen := false } rfl [[0, 1], [3, 3]] _ rfl
  exact ⟨cs, h1, by simpa using congrArg List.length h2⟩

/-- a SkewNormal can be fitted to `0, 1` once and not twice, and not to `0, 0, 0, 0, 1` -/
example : Gives (construct .skewNormal fun _ => none) fun o => ∃ d, fitMle demo .skewNormal [0, 1] o = .ok d ∧
    fitMle demo .skewNormal [0, 1] d = .error .valueError ∧
    fitMle demo .skewNormal [0, 0, 0, 0, 1] o = .error .valueError := by
  obtain ⟨o, h1, h2⟩ := skew_fit_iff demo demo_skew (fun _ _ _ => ⟨_, rfl, by simp⟩) (by simp [demo])
    (fun _ => by simp [demo]) [0, 1]
  obtain ⟨d, hd⟩ := h2.2 (by rw [sym_sample.1, sym_sample.2]; norm_num)
  refine ⟨o, h1, d, hd, ?_, skewed_sample_fails demo _ o (Or.inr skew_sample)⟩
  have hn : o.names = ["mu", "sigma", "alpha"] := by
    simp only [construct, parametrize, skewNormalParam, allNotNone, List.all_cons, List.all_nil, Option.isSome_none,
      Bool.false_and, Bool.false_eq_true, if_false, Except.pure_eq, Except.ok_bind', Except.ok.injEq] at h1
    rw [← h1]
  exact second_fit_fails demo (fun _ => by simp [demo]) .skewNormal rfl (fun _ => by simp [demo, update]) _ _ o d
    (by rw [hn]; simp [exactNames]) hd

/-- a vector-valued NegativeBinomial prior, and a matrix-valued Normal one -/
example (o : Obj) (ho : o.names = ["mu", "alpha"]) : (∃ e, backfitVector demo .negativeBinomial 2 [[0, 1], [3, 4]] o
    = .error e) ∧ ∃ e, backfitVector demo .normal 4 [[0, 1], [3, 4]] o = .error e :=
  ⟨(backfit_vector_fails demo (fun _ => by simp [demo]) .negativeBinomial rfl (fun _ => by simp [demo, update, nbUpdate]) o
    (by rw [ho]; simp [exactNames]) _ _ [] 0).1, backfit_matrix_fails demo .normal o _ 4 (by simp)⟩

end Verif.Props
