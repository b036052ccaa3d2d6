import Verif.Lemmas.MatchMv
import Verif.Lemmas.NoVar
import Verif.Props.Law
import Verif.Props.LawMore
import Verif.Props.NumFit
import Verif.Props.HalfScale

/-!
# C124: which mean and variance a family can have, and what match_moments returns
-/

namespace Verif.Props
open MeasureTheory Set Verif.Spec Verif.Param Verif.Lemmas.MatchMv Verif.NumFit Verif.Optim

private theorem mv_unique {P : Measure ℝ} {m v m' v' : ℝ} (h : HasMoments P m v) (h' : HasMoments P m' v') :
    m = m' ∧ v = v' := by
  have e : m = m' := by rw [← h.mean, h'.mean]
  subst e
  exact ⟨rfl, by rw [← h.var, h'.var]⟩

private theorem mv_eps : (0 : ℝ) < eps := by unfold eps; positivity

/-- **C124**: for admissible parameters, the documented law has a mean and a variance exactly for the parameters for which the
textbook gives a finite variance (InverseGamma and Pareto: `alpha` above two, StudentT: `nu` above two). -/
theorem has_var_iff (f : MomFam) (l : List ℝ) (h : Admissible f l) : (∃ m v, HasMoments (lawOf f l) m v) ↔ HasVar f l := by
  refine ⟨?_, fun hv => ⟨_, _, moments_of_law f l h hv⟩⟩
  rintro ⟨m, v, hm⟩
  by_contra hv
  cases f
  case inverseGamma =>
    rcases l with _ | ⟨a, _ | ⟨b, _ | ⟨c, t⟩⟩⟩ <;> try exact h.elim
    exact Lemmas.NoVar.inverseGamma_heavy h.1 h.2 (not_lt.1 hv) m v hm
  case pareto =>
    rcases l with _ | ⟨a, _ | ⟨b, _ | ⟨c, t⟩⟩⟩ <;> try exact h.elim
    exact Lemmas.NoVar.pareto_heavy h.1 h.2 (not_lt.1 hv) m v hm
  case studentT =>
    rcases l with _ | ⟨a, _ | ⟨b, _ | ⟨c, _ | ⟨d, t⟩⟩⟩⟩ <;> try exact h.elim
    exact Lemmas.NoVar.student_heavy h.1 b h.2 (not_lt.1 hv) m v hm
  all_goals exact hv trivial

/-- **C124**: a distribution of the family has mean `m` and variance `v` exactly if these can be had and the parameters are the
ones written out. -/
theorem mv_iff (F : MvFam) (hF : F.Ok) (a b m v : ℝ) (h : Admissible F.mom (F.vals a b)) :
    HasMoments (lawOf F.mom (F.vals a b)) m v ↔ F.Reach m v ∧ (a, b) = F.fitted m v := by
  constructor
  · intro h'
    have hv := (has_var_iff _ _ h).1 ⟨m, v, h'⟩
    obtain ⟨rfl, rfl⟩ := mv_unique (moments_of_law _ _ h hv) h'
    obtain ⟨e1, e2⟩ := mv_in F hF a b h hv
    exact ⟨e1, e2.symm⟩
  · rintro ⟨hr, e⟩
    obtain ⟨-, hv, e1, e2⟩ := mv_out F hF m v hr
    rw [← e] at e1 e2 hv
    dsimp only at e1 e2 hv
    have hm := moments_of_law _ _ h hv
    rw [e1, e2] at hm
    exact hm

/-- **C124**: which means and variances can be had. -/
theorem mv_attained (F : MvFam) (hF : F.Ok) (m v : ℝ) :
    (∃ a b, Admissible F.mom (F.vals a b) ∧ HasMoments (lawOf F.mom (F.vals a b)) m v) ↔ F.Reach m v := by
  constructor
  · rintro ⟨a, b, h, hm⟩
    exact ((mv_iff F hF a b m v h).1 hm).1
  · intro hr
    obtain ⟨h, -, -, -⟩ := mv_out F hF m v hr
    exact ⟨_, _, h, (mv_iff F hF _ _ m v h).2 ⟨hr, rfl⟩⟩

/-! ### match_moments -/

private theorem mv_filled (F : MvFam) (o d : Obj) (ho : construct F.mom.family F.given = .ok o) (x : List ℝ)
    (kvs : List (String × ℝ)) (hk : Filled o.names o.attr x kvs)
    (hd : construct F.mom.family (fun k => kvs.lookup k) = .ok d) :
    ∃ a b, x = [a, b] ∧ law F.mom.family d = (F.vals a b).map some := by
  obtain ⟨k1, k2, k3⟩ := hk
  have two : ∀ a c : String, kvs.map Prod.fst = [a, c] → ∃ v w, kvs = [(a, v), (c, w)] := by
    intro a c h
    match kvs, h with
    | [(a', v), (c', w)], h =>
      simp only [List.map_cons, List.map_nil, List.cons.injEq, and_true] at h
      obtain ⟨rfl, rfl⟩ := h
      exact ⟨v, w, rfl⟩
  have three : ∀ a c e : String, kvs.map Prod.fst = [a, c, e] → ∃ v w z, kvs = [(a, v), (c, w), (e, z)] := by
    intro a c e h
    match kvs, h with
    | [(a', v), (c', w), (e', z)], h =>
      simp only [List.map_cons, List.map_nil, List.cons.injEq, and_true] at h
      obtain ⟨rfl, rfl, rfl⟩ := h
      exact ⟨v, w, z, rfl⟩
  cases F <;>
    simp [construct, MvFam.mom, MomFam.family, MvFam.given, parametrize, normalParam, studentTParam, asymLaplaceParam,
      gammaLikeParam, waldParam, betaParam, simpleParam, simpleFam, anyNotNone, allNotNone, blank, Obj.setAll, Obj.set,
      Except.ok_bind', Except.pure_eq] at ho <;>
    subst ho <;> dsimp only at k1 k2 k3
  case studentT n =>
    obtain ⟨v, w, z, rfl⟩ := three _ _ _ k1
    have e := k2 ("nu", v) (by simp) n (by simp [Function.update])
    simp [Function.update] at k3
    simp only at e
    subst e
    simp [construct, MvFam.mom, MomFam.family, parametrize, studentTParam, studentTUpdate, List.lookup, allNotNone, blank,
      Obj.setAll, Obj.set, Except.ok_bind', Except.pure_eq] at hd
    subst hd
    exact ⟨w, z, k3.symm, by simp [law, lawAttrs, MvFam.mom, MomFam.family, MvFam.vals, Obj.setAll, Obj.set, Function.update]⟩
  case asymmetricLaplace c =>
    obtain ⟨v, w, z, rfl⟩ := three _ _ _ k1
    have e := k2 ("kappa", v) (by simp) c (by simp [Function.update])
    simp [Function.update] at k3
    simp only at e
    subst e
    simp [construct, MvFam.mom, MomFam.family, parametrize, asymLaplaceParam, asymLaplaceUpdate, List.lookup, allNotNone,
      anyNotNone, blank, Obj.setAll, Obj.set, Except.ok_bind', Except.pure_eq] at hd
    subst hd
    exact ⟨w, z, k3.symm, by simp [law, lawAttrs, MvFam.mom, MomFam.family, MvFam.vals, Obj.setAll, Obj.set, Function.update]⟩
  all_goals
    obtain ⟨v, w, rfl⟩ := two _ _ k1
    simp [Function.update] at k3
    simp [construct, MvFam.mom, MomFam.family, parametrize, normalParam, normalUpdate, gammaLikeParam, gammaUpdate,
      invGammaUpdate, waldParam, waldUpdate, betaParam, betaUpdate, simpleParam, simpleFam, simpleUpdate, List.lookup,
      anyNotNone, allNotNone, blank, Obj.setAll, Obj.set, Except.ok_bind', Except.pure_eq] at hd
    subst hd
    exact ⟨v, w, k3.symm, by simp [law, lawAttrs, MvFam.mom, MomFam.family, MvFam.vals, Obj.setAll, Obj.set, Function.update]⟩

private theorem mv_free (F : MvFam) (o : Obj) (ho : construct F.mom.family F.given = .ok o) :
    freeBounds o F.box = F.free := by
  cases F <;>
    simp [construct, MvFam.mom, MomFam.family, MvFam.given, parametrize, normalParam, studentTParam, asymLaplaceParam,
      gammaLikeParam, waldParam, betaParam, simpleParam, simpleFam, anyNotNone, allNotNone, blank, Obj.setAll, Obj.set,
      Except.ok_bind', Except.pure_eq] at ho <;>
    subst ho <;>
    simp [freeBounds, getFixedParams, splitStep, Function.update, List.zipIdx, MvFam.box, MvFam.free]

private theorem mv_inbox (F : MvFam) (hF : F.Ok) (a b : ℝ) (h : InBox F.free [a, b]) :
    F = .uniform ∨ Admissible F.mom (F.vals a b) := by
  have hep := mv_eps
  obtain ⟨-, h⟩ := h
  have h0 := (h 0 (by simp) (by cases F <;> simp [MvFam.box, MvFam.free])).1
  have h1 := (h 1 (by simp) (by cases F <;> simp [MvFam.box, MvFam.free])).1
  cases F <;> simp [MvFam.box, MvFam.free] at h0 h1 <;>
    simp only [Admissible, MvFam.mom, MvFam.vals, MvFam.Ok, reduceCtorEq, false_or, true_or] at hF ⊢
  all_goals first | linarith | exact ⟨by linarith, by linarith⟩

private theorem mv_choice (F : MvFam) (o : Obj) (ho : construct F.mom.family F.given = .ok o) (v w : ℝ)
    (hin : InBox F.free [v, w]) :
    ∃ d, Choice F.mom.family o (freeBounds o F.box) d ∧ law F.mom.family d = (F.vals v w).map some := by
  rw [mv_free F o ho]
  have main : ∀ a c : String, a ≠ c → o.names = [a, c] → o.attr a = none → o.attr c = none →
      (∃ d, construct F.mom.family (fun k => if k = a then some v else if k = c then some w else none) = .ok d ∧
        law F.mom.family d = (F.vals v w).map some) →
      ∃ d, Choice F.mom.family o F.free d ∧ law F.mom.family d = (F.vals v w).map some := by
    rintro a c hac hn ha hc ⟨d, hd, hl⟩
    refine ⟨d, ⟨_, hd, ?_, ?_, ?_⟩, hl⟩
    · intro k
      rw [hn]
      simp only [List.mem_cons, List.not_mem_nil, or_false]
      split_ifs <;> simp_all
    · intro k hk v hv
      rw [hn] at hk
      simp only [List.mem_cons, List.not_mem_nil, or_false] at hk
      rcases hk with rfl | rfl <;> simp_all
    · rw [hn]
      simpa [ha, hc, hac.symm] using hin
  have main3 : ∀ (a b c : String) (n : ℝ), a ≠ b → a ≠ c → b ≠ c → o.names = [a, b, c] → o.attr a = some n →
      o.attr b = none → o.attr c = none →
      (∃ d, construct F.mom.family (fun k => if k = a then some n else if k = b then some v else if k = c then some w
        else none) = .ok d ∧ law F.mom.family d = (F.vals v w).map some) →
      ∃ d, Choice F.mom.family o F.free d ∧ law F.mom.family d = (F.vals v w).map some := by
    rintro a b c n hab hac hbc hn ha hb hc ⟨d, hd, hl⟩
    refine ⟨d, ⟨_, hd, ?_, ?_, ?_⟩, hl⟩
    · intro k
      rw [hn]
      simp only [List.mem_cons, List.not_mem_nil, or_false]
      split_ifs <;> simp_all
    · intro k hk v hv
      rw [hn] at hk
      simp only [List.mem_cons, List.not_mem_nil, or_false] at hk
      rcases hk with rfl | rfl | rfl <;> simp_all
    · rw [hn]
      simpa [ha, hb, hc, hab.symm, hac.symm, hbc.symm] using hin
  cases F <;>
    simp [construct, MvFam.mom, MomFam.family, MvFam.given, parametrize, normalParam, studentTParam, asymLaplaceParam,
      gammaLikeParam, waldParam, betaParam, simpleParam, simpleFam, anyNotNone, allNotNone, blank, Obj.setAll, Obj.set,
      Except.ok_bind', Except.pure_eq] at ho <;>
    subst ho
  case studentT n =>
    refine main3 "nu" "mu" "sigma" n (by decide) (by decide) (by decide) rfl (by simp [Function.update])
      (by simp [Function.update]) (by simp [Function.update]) ⟨_, by
      simp [construct, MvFam.mom, MomFam.family, parametrize, studentTParam, studentTUpdate, allNotNone, Except.ok_bind',
        Except.pure_eq]; rfl, by
      simp [law, lawAttrs, MvFam.mom, MomFam.family, MvFam.vals, Obj.setAll, Obj.set, Function.update]⟩
  case asymmetricLaplace n =>
    refine main3 "kappa" "mu" "b" n (by decide) (by decide) (by decide) rfl (by simp [Function.update])
      (by simp [Function.update]) (by simp [Function.update]) ⟨_, by
      simp [construct, MvFam.mom, MomFam.family, parametrize, asymLaplaceParam, asymLaplaceUpdate, allNotNone, anyNotNone,
        Except.ok_bind', Except.pure_eq]; rfl, by
      simp [law, lawAttrs, MvFam.mom, MomFam.family, MvFam.vals, Obj.setAll, Obj.set, Function.update]⟩
  all_goals
    refine main _ _ (by decide) rfl (by simp [Function.update]) (by simp [Function.update]) ⟨_, by
      simp [construct, MvFam.mom, MomFam.family, parametrize, normalParam, normalUpdate, gammaLikeParam, gammaUpdate,
        invGammaUpdate, waldParam, waldUpdate, betaParam, betaUpdate, simpleParam, simpleFam, simpleUpdate, anyNotNone,
        allNotNone, Except.ok_bind', Except.pure_eq]; rfl, by
      simp [law, lawAttrs, MvFam.mom, MomFam.family, MvFam.vals, Obj.setAll, Obj.set, Function.update]⟩

/-- what `moments("mv")` of a distribution gives: the mean and the variance of the law where they exist, otherwise something
that is not the target -/
def ReportsMv (f : MomFam) (moments : List (Option ℝ) → List ℝ) (target : List ℝ) : Prop :=
  (∀ l, (moments l).length = 2) ∧
  (∀ l, Admissible f l → ∀ m v, HasMoments (lawOf f l) m v → moments (l.map some) = [m, v]) ∧
  ∀ l, Admissible f l → (¬ ∃ m v, HasMoments (lawOf f l) m v) → moments (l.map some) ≠ target

/-- **C124**: match_moments.  With an optimiser that finds the minimum: if the mean and the variance asked for can be had and the
parameters written out are within the bounds, the distribution returned has these parameters (for Uniform: unless the search
ends at bounds in the wrong order, where nothing is documented).  If they cannot be had, the distribution returned does not
have them. -/
theorem match_mv (F : MvFam) (hF : F.Ok) (o o1 : Obj) (ho : construct F.mom.family F.given = .ok o)
    (moments : List (Option ℝ) → List ℝ) (m v : ℝ) (hrep : ReportsMv F.mom moments [m, v])
    (opt : Optimiser) (G : List ℝ → Except Err (List ℝ))
    (hG : IsObjective F.mom.family o.names o.attr
      (fun l => [(((moments l).zip [m, v]).map fun vt => (vt.1 - vt.2) ^ 2).sum]) G)
    (hfind : Finds opt G (startAt o o1) (freeBounds o F.box)) :
    Gives (optimizeMoments opt F.mom.family moments [m, v] o.names F.box (getFixedParams o).1 (getFixedParams o).2 o1)
      fun r => ∃ a b, law F.mom.family r.2 = (F.vals a b).map some ∧
        (F = .uniform ∧ b ≤ a ∨ Admissible F.mom (F.vals a b) ∧
          (F.Reach m v → InBox F.free [(F.fitted m v).1, (F.fitted m v).2] → (a, b) = F.fitted m v) ∧
          (¬ F.Reach m v → ¬ HasMoments (lawOf F.mom (F.vals a b)) m v)) := by
  have he : momentsResidual moments [m, v] =
      fun l => [(((moments l).zip [m, v]).map fun vt => (vt.1 - vt.2) ^ 2).sum] := by
    funext l
    unfold momentsResidual
    rw [← List.map_uncurry_zip_eq_zipWith]
    rfl
  have hsc : ScaledNames F.mom.family o.names := by
    intro h; cases F <;> simp [MvFam.mom, MomFam.family] at h
  obtain ⟨x, o', e1, e2, ⟨kvs, d, e3, e4, e5, -⟩, e6⟩ := fit_best opt F.mom.family o o1 hsc F.box _ G hG hfind
  obtain ⟨a, b, rfl, e7⟩ := mv_filled F o d ho x kvs e3 e4
  rw [mv_free F o ho] at e2
  refine ⟨(_, o'), by unfold optimizeMoments; rw [he]; exact e1, a, b, e5.trans e7, ?_⟩
  have hgd : F = .uniform ∧ b ≤ a ∨ Admissible F.mom (F.vals a b) := by
    rcases mv_inbox F hF a b e2 with h | h
    · subst h
      rcases le_or_gt b a with h | h
      · exact .inl ⟨rfl, h⟩
      · exact .inr h
    · exact .inr h
  refine hgd.imp_right fun hg => ⟨hg, fun hr hin => ?_, fun hr hm => hr ((mv_iff F hF a b m v hg).1 hm).1⟩
  obtain ⟨a1, a2, -, -⟩ := mv_out F hF m v hr
  obtain ⟨d', hd', hl'⟩ := mv_choice F o ho _ _ hin
  obtain ⟨r, hr', r1⟩ := moments_exact opt F.mom.family moments [m, v] hrep.1 o o1 hsc F.box G hG hfind d' hd'
    (by rw [hl']; exact hrep.2.1 _ a1 _ _ ((mv_iff F hF _ _ m v a1).2 ⟨hr, rfl⟩))
  have : r = ([a, b], o') := by
    unfold optimizeMoments at hr'
    rw [he, e1] at hr'
    simpa using hr'.symm
  subst this
  dsimp only at r1
  rw [e5, e7] at r1
  by_contra hne
  refine hrep.2.2 _ hg ?_ r1
  rintro ⟨m', v', hm⟩
  have := hrep.2.1 _ hg _ _ hm
  rw [r1] at this
  simp only [List.cons.injEq, and_true] at this
  rw [← this.1, ← this.2] at hm
  exact hne ((mv_iff F hF a b m v hg).1 hm).2

/-- **C124**: matching the moments of a distribution of the same family gives back that distribution (if its parameters are
within the bounds of the search). -/
theorem match_mv_own (F : MvFam) (hF : F.Ok) (a0 b0 : ℝ) (h0 : Admissible F.mom (F.vals a0 b0)) (hin : InBox F.free [a0, b0])
    (m v : ℝ) (hm : HasMoments (lawOf F.mom (F.vals a0 b0)) m v) (o o1 : Obj)
    (ho : construct F.mom.family F.given = .ok o)
    (moments : List (Option ℝ) → List ℝ) (hrep : ReportsMv F.mom moments [m, v])
    (opt : Optimiser) (G : List ℝ → Except Err (List ℝ))
    (hG : IsObjective F.mom.family o.names o.attr
      (fun l => [(((moments l).zip [m, v]).map fun vt => (vt.1 - vt.2) ^ 2).sum]) G)
    (hfind : Finds opt G (startAt o o1) (freeBounds o F.box)) :
    Gives (optimizeMoments opt F.mom.family moments [m, v] o.names F.box (getFixedParams o).1 (getFixedParams o).2 o1)
      fun r => law F.mom.family r.2 = (F.vals a0 b0).map some ∨
        F = .uniform ∧ ∃ l u, u ≤ l ∧ law F.mom.family r.2 = [some l, some u] := by
  obtain ⟨r, hr, a, b, h1, h2⟩ := match_mv F hF o o1 ho moments m v hrep opt G hG hfind
  refine ⟨r, hr, ?_⟩
  obtain ⟨e1, e2⟩ := (mv_iff F hF a0 b0 m v h0).1 hm
  rcases h2 with ⟨rfl, hba⟩ | ⟨-, h3, -⟩
  · exact .inr ⟨rfl, a, b, hba, h1⟩
  · have := h3 e1 (by rw [← e2]; exact hin)
    rw [← e2, Prod.mk.injEq] at this
    rw [this.1, this.2] at h1
    exact .inl h1

/-! ### Families with one free parameter -/

private theorem line_filled (F : LineFam) (o d : Obj) (ho : construct F.mom.family (fun _ => none) = .ok o) (x : List ℝ)
    (kvs : List (String × ℝ)) (hk : Filled o.names o.attr x kvs)
    (hd : construct F.mom.family (fun k => kvs.lookup k) = .ok d) : ∃ a, x = [a] ∧ law F.mom.family d = [some a] := by
  obtain ⟨k1, k2, k3⟩ := hk
  have one : ∀ a : String, kvs.map Prod.fst = [a] → ∃ v, kvs = [(a, v)] := by
    intro a h
    match kvs, h with
    | [(a', v)], h =>
      simp only [List.map_cons, List.map_nil, List.cons.injEq, and_true] at h
      subst h
      exact ⟨v, rfl⟩
  cases F <;>
    simp [construct, LineFam.mom, MomFam.family, parametrize, simpleParam, simpleFam, allNotNone, blank, Obj.setAll, Obj.set,
      Except.ok_bind', Except.pure_eq] at ho <;>
    subst ho <;> dsimp only at k1 k2 k3
  all_goals
    obtain ⟨v, rfl⟩ := one _ k1
    simp [Function.update] at k3
    simp [construct, LineFam.mom, MomFam.family, parametrize, simpleParam, simpleFam, simpleUpdate, List.lookup, allNotNone,
      blank, Obj.setAll, Obj.set, Except.ok_bind', Except.pure_eq] at hd
    subst hd
    exact ⟨v, k3.symm, by simp [law, lawAttrs, LineFam.mom, MomFam.family, Obj.setAll, Obj.set, Function.update]⟩

private theorem line_free (F : LineFam) (o : Obj) (ho : construct F.mom.family (fun _ => none) = .ok o) :
    freeBounds o [(((eps : ℝ) : EReal), ⊤)] = [(((eps : ℝ) : EReal), ⊤)] := by
  cases F <;>
    simp [construct, LineFam.mom, MomFam.family, parametrize, simpleParam, simpleFam, allNotNone, blank, Obj.setAll, Obj.set,
      Except.ok_bind', Except.pure_eq] at ho <;>
    subst ho <;>
    simp [freeBounds, getFixedParams, splitStep, Function.update, List.zipIdx]

private theorem line_choice (F : LineFam) (o : Obj) (ho : construct F.mom.family (fun _ => none) = .ok o) (v : ℝ)
    (hv : eps ≤ v) :
    ∃ d, Choice F.mom.family o (freeBounds o [(((eps : ℝ) : EReal), ⊤)]) d ∧ law F.mom.family d = [some v] := by
  rw [line_free F o ho]
  have main : ∀ a : String, o.names = [a] → o.attr a = none →
      (∃ d, construct F.mom.family (fun k => if k = a then some v else none) = .ok d ∧ law F.mom.family d = [some v]) →
      ∃ d, Choice F.mom.family o [(((eps : ℝ) : EReal), ⊤)] d ∧ law F.mom.family d = [some v] := by
    rintro a hn ha ⟨d, hd, hl⟩
    refine ⟨d, ⟨_, hd, ?_, ?_, ?_⟩, hl⟩
    · intro k
      rw [hn]
      simp only [List.mem_cons, List.not_mem_nil, or_false]
      split_ifs <;> simp_all
    · intro k hk v hv
      rw [hn] at hk
      simp only [List.mem_cons, List.not_mem_nil, or_false] at hk
      subst hk
      simp_all
    · rw [hn]
      have := (half_in v).2 hv
      simpa [ha] using this
  cases F <;>
    simp [construct, LineFam.mom, MomFam.family, parametrize, simpleParam, simpleFam, allNotNone, blank, Obj.setAll, Obj.set,
      Except.ok_bind', Except.pure_eq] at ho <;>
    subst ho <;>
    refine main _ rfl (by simp [Function.update]) ⟨_, by
      simp [construct, LineFam.mom, MomFam.family, parametrize, simpleParam, simpleFam, simpleUpdate, allNotNone]; rfl, by
      simp [law, lawAttrs, LineFam.mom, MomFam.family, Obj.setAll, Obj.set, Function.update]⟩

/-- **C124**: Poisson and ChiSquared have one parameter, the mean, and a variance proportional to it.  The parameter returned is
the best compromise between the two targets, not the mean asked for: Poisson takes their average, ChiSquared `(m + 2 v) / 5`. -/
theorem match_mv_line (F : LineFam) (o o1 : Obj) (ho : construct F.mom.family (fun _ => none) = .ok o)
    (moments : List (Option ℝ) → List ℝ) (m v : ℝ) (hrep : ReportsMv F.mom moments [m, v])
    (opt : Optimiser) (G : List ℝ → Except Err (List ℝ))
    (hG : IsObjective F.mom.family o.names o.attr
      (fun l => [(((moments l).zip [m, v]).map fun vt => (vt.1 - vt.2) ^ 2).sum]) G)
    (hfind : Finds opt G (startAt o o1) (freeBounds o [(((eps : ℝ) : EReal), ⊤)])) :
    Gives (optimizeMoments opt F.mom.family moments [m, v] o.names [(((eps : ℝ) : EReal), ⊤)] (getFixedParams o).1
      (getFixedParams o).2 o1)
      fun r => law F.mom.family r.2 = [some (max eps ((m + F.ratio * v) / (1 + F.ratio ^ 2)))] := by
  have he : momentsResidual moments [m, v] =
      fun l => [(((moments l).zip [m, v]).map fun vt => (vt.1 - vt.2) ^ 2).sum] := by
    funext l
    unfold momentsResidual
    rw [← List.map_uncurry_zip_eq_zipWith]
    rfl
  have hep := mv_eps
  have hsc : ScaledNames F.mom.family o.names := by
    intro h; cases F <;> simp [LineFam.mom, MomFam.family] at h
  obtain ⟨x, o', e1, e2, ⟨kvs, d, e3, e4, e5, -⟩, e6⟩ := fit_best opt F.mom.family o o1 hsc _ _ G hG hfind
  have hfree := line_free F o ho
  obtain ⟨a, rfl, e7⟩ := line_filled F o d ho x kvs e3 e4
  rw [hfree, half_in] at e2
  refine ⟨(_, o'), by unfold optimizeMoments; rw [he]; exact e1, (e5.trans e7).trans ?_⟩
  have hval : ∀ x, eps ≤ x → moments [some x] = [x, F.ratio * x] := by
    intro x hx
    have hx0 : 0 < x := by linarith
    have := hrep.2.1 [x] (by cases F <;> exact hx0) (tMean F.mom [x]) (tVar F.mom [x])
      (moments_of_law _ _ (by cases F <;> exact hx0) (by cases F <;> exact trivial))
    rw [show [some x] = [x].map some from rfl, this]
    cases F <;> simp [LineFam.mom, tMean, tVar, LineFam.ratio]
  have hk : 0 < 1 + F.ratio ^ 2 := by positivity
  set z := (m + F.ratio * v) / (1 + F.ratio ^ 2) with hz
  have hz' : m + F.ratio * v = z * (1 + F.ratio ^ 2) := by rw [hz]; field_simp
  obtain ⟨d', hd', hl'⟩ := line_choice F o ho (max eps z) (le_max_left _ _)
  have := e6 d' hd'
  rw [e5, e7, hl', hval _ e2, hval _ (le_max_left _ _)] at this
  simp only [cost, List.zip_cons_cons, List.zip_nil_right, List.map_cons, List.map_nil, List.sum_cons, List.sum_nil,
    add_zero] at this
  have h2 := (pow_le_pow_iff_left₀ (by positivity) (by positivity) two_ne_zero).1 this
  have key : ∀ x, (x - m) ^ 2 + (F.ratio * x - v) ^ 2 =
      (1 + F.ratio ^ 2) * (x - z) ^ 2 + (m ^ 2 + v ^ 2 - (1 + F.ratio ^ 2) * z ^ 2) := by
    intro x
    linear_combination -2 * x * hz'
  rw [key, key, add_le_add_iff_right, mul_le_mul_iff_right₀ hk] at h2
  congr 2
  rcases le_total eps z with h | h
  · rw [max_eq_right h] at h2 ⊢
    have : (a - z) ^ 2 = 0 := le_antisymm (by simpa using h2) (sq_nonneg _)
    have := pow_eq_zero_iff two_ne_zero |>.1 this
    linarith
  · rw [max_eq_left h] at h2 ⊢
    have := (pow_le_pow_iff_left₀ (by linarith) (by linarith) two_ne_zero).1 h2
    linarith

private theorem half_mv_one {F : HalfFam} (h : F.HasMv) : 0 < F.unitMean := by
  have hp := Real.pi_pos
  cases F with
  | exponential => exact one_pos
  | halfNormal => simp only [HalfFam.unitMean]; positivity
  | halfCauchy => exact h.elim
  | halfStudentT n =>
    have hn : 2 < n := h
    have h1 : 0 < n - 1 := by linarith
    have hg1 := Real.Gamma_pos_of_pos (show 0 < (n + 1) / 2 by linarith)
    have hg2 := Real.Gamma_pos_of_pos (show 0 < n / 2 by linarith)
    simp only [HalfFam.unitMean, halfStudentMean]
    positivity

/-- **C124**: the mean of a half-line family is proportional to the scale, the variance to its square. -/
theorem half_mv (F : HalfFam) (h : F.HasMv) (s : ℝ) (hs : 0 < s) :
    HasMoments (ofPdf (F.pdf s)) (F.unitMean * s) (F.unitVar * s ^ 2) := by
  cases F with
  | exponential =>
    have := Law.exponential (show 0 < 1 / s by positivity)
    simpa [HalfFam.pdf, HalfFam.unitMean, HalfFam.unitVar] using this
  | halfNormal =>
    have := Law.halfNormal hs
    simp only [HalfFam.pdf, HalfFam.unitMean, HalfFam.unitVar]
    rwa [mul_comm _ s, mul_comm _ (s ^ 2)]
  | halfCauchy => exact h.elim
  | halfStudentT n =>
    have := half_student_documented (show 2 < n from h) hs
    simp only [HalfFam.pdf, HalfFam.unitMean, HalfFam.unitVar]
    rw [show halfStudentMean n 1 * s = halfStudentMean n s by unfold halfStudentMean; ring,
      show halfStudentVar n 1 * s ^ 2 = halfStudentVar n s by unfold halfStudentVar; ring]
    exact this

/-- **C124**: the families on the half line: one scale cannot meet a mean and a variance that do not belong together.  For a
positive target mean the scale returned is the only positive root of a cubic equation (if the parameter for it is allowed); it
is the scale that gives the mean exactly if it also gives the variance. -/
theorem match_mv_half (F : HalfFam) (hF : F.HasMv) (o o1 : Obj) (ho : construct F.family F.given = .ok o)
    (moments : List (Option ℝ) → List ℝ)
    (hmom : ∀ x, 0 < x → ∀ m v, HasMoments (ofPdf (F.pdf (F.scale x))) m v → moments (F.values x) = [m, v])
    (m v : ℝ) (hm : 0 < m) (opt : Optimiser) (G : List ℝ → Except Err (List ℝ))
    (hG : IsObjective F.family o.names o.attr
      (fun l => [(((moments l).zip [m, v]).map fun vt => (vt.1 - vt.2) ^ 2).sum]) G)
    (hfind : Finds opt G (startAt o o1) (freeBounds o F.box)) :
    ∃ s, 0 < s ∧
      (∀ t, 0 < t → (2 * F.unitVar ^ 2 * t ^ 3 + (F.unitMean ^ 2 - 2 * F.unitVar * v) * t = F.unitMean * m ↔ t = s)) ∧
      (F.unitMean * s = m ↔ F.unitVar * s ^ 2 = v) ∧
      ∀ x0, eps ≤ x0 → F.scale x0 = s →
        Gives (optimizeMoments opt F.family moments [m, v] o.names F.box (getFixedParams o).1 (getFixedParams o).2 o1)
          fun r => law F.family r.2 = F.values x0 := by
  have h1 := half_mv_one hF
  have h2 : 0 < F.unitVar := by
    have := Lemmas.NoVar.var_positive (half_mv F hF 1 one_pos)
    simpa using this
  obtain ⟨s, ⟨hs, es⟩, huniq⟩ := cubic_root (v := v) h1 h2 hm
  refine ⟨s, hs, fun t ht => ⟨fun e => huniq t ⟨ht, e⟩, fun e => e ▸ es⟩, ?_, fun x0 hx0 hsc0 => ?_⟩
  · have e : 2 * F.unitVar * s * (F.unitVar * s ^ 2 - v) = F.unitMean * (m - F.unitMean * s) := by linear_combination es
    constructor
    · intro h
      rw [h, sub_self, mul_zero] at e
      have : 2 * F.unitVar * s ≠ 0 := by positivity
      have := (mul_eq_zero.1 e).resolve_left this
      linarith
    · intro h
      rw [h, sub_self, mul_zero] at e
      have := (mul_eq_zero.1 e.symm).resolve_left h1.ne'
      linarith
  have he : momentsResidual moments [m, v] =
      fun l => [(((moments l).zip [m, v]).map fun vt => (vt.1 - vt.2) ^ 2).sum] := by
    funext l
    unfold momentsResidual
    rw [← List.map_uncurry_zip_eq_zipWith]
    rfl
  have hpos : ∀ v, eps ≤ v → 0 < F.scale v := by
    intro v hv
    have := mv_eps.trans_le hv
    cases F <;> simp only [HalfFam.scale] <;> positivity
  have hsc : ScaledNames F.family o.names := by
    intro h; cases F <;> simp [HalfFam.family] at h
  obtain ⟨x, o', e1, e2, ⟨kvs, d, e3, e4, e5, -⟩, e6⟩ := fit_best opt F.family o o1 hsc F.box _ G hG hfind
  obtain ⟨w, rfl, e7⟩ := half_filled F o d ho x kvs e3 e4
  rw [half_free F o ho, half_in] at e2
  refine ⟨(_, o'), by unfold optimizeMoments; rw [he]; exact e1, (e5.trans e7).trans ?_⟩
  have hval : ∀ x, eps ≤ x → moments (F.values x) = [F.unitMean * F.scale x, F.unitVar * F.scale x ^ 2] :=
    fun x hx => hmom x (mv_eps.trans_le hx) _ _ (half_mv F hF _ (hpos x hx))
  obtain ⟨d', hd', hl'⟩ := half_choice F o ho x0 hx0
  have := e6 d' hd'
  rw [e5, e7, hl', hval _ e2, hval _ hx0] at this
  simp only [cost, List.zip_cons_cons, List.zip_nil_right, List.map_cons, List.map_nil, List.sum_cons, List.sum_nil,
    add_zero] at this
  have h3 := (pow_le_pow_iff_left₀ (by positivity) (by positivity) two_ne_zero).1 this
  rw [hsc0] at h3
  have hw := quartic_min h1 h2 hm hs es h3
  rw [← hsc0] at hw
  have : w = x0 := by
    cases F <;> simp only [HalfFam.scale] at hw
    · rw [one_div, one_div, inv_inj] at hw; exact hw
    all_goals exact hw
  rw [this]

/-! The hypotheses are met. -/

/-- targets that cannot be had: a Beta cannot have mean 1/2 and variance 1/4, a Gamma no negative mean -/
example : ¬ MvFam.beta.Reach (1 / 2) (1 / 4) ∧ ¬ MvFam.gamma.Reach (-1) 1 ∧ MvFam.beta.Reach (1 / 2) (1 / 12) ∧
    MvFam.beta.fitted (1 / 2) (1 / 12) = (1, 1) := by
  simp only [MvFam.Reach, MvFam.fitted]; norm_num

private noncomputable def momTable (f : MomFam) (l : List (Option ℝ)) : List ℝ := by
  classical exact if Admissible f (l.map fun x => x.getD 0) ∧ HasVar f (l.map fun x => x.getD 0) then
    [tMean f (l.map fun x => x.getD 0), tVar f (l.map fun x => x.getD 0)] else [0, 0]

private theorem momTable_reports (f : MomFam) (m v : ℝ) (h : m ≠ 0) : ReportsMv f (momTable f) [m, v] := by
  have e : ∀ l : List ℝ, (l.map some).map (fun x => x.getD 0) = l := by intro l; simp
  refine ⟨fun l => by unfold momTable; split_ifs <;> rfl, fun l hl m' v' hm => ?_, fun l hl hno => ?_⟩
  · have hv := (has_var_iff f l hl).1 ⟨m', v', hm⟩
    obtain ⟨rfl, rfl⟩ := mv_unique (moments_of_law f l hl hv) hm
    unfold momTable
    rw [e, if_pos ⟨hl, hv⟩]
  · unfold momTable
    rw [e, if_neg fun hv => hno ((has_var_iff f l hl).2 hv.2)]
    intro h'
    simp only [List.cons.injEq] at h'
    exact h h'.1.symm

/-- the example in the documentation: a Gamma with the moments of Normal(14, 1) has `alpha` 196 and `beta` 14 -/
example : ∃ (o : Obj) (moments : List (Option ℝ) → List ℝ) (opt : Optimiser) (G : List ℝ → Except Err (List ℝ)),
    construct MvFam.gamma.mom.family MvFam.gamma.given = .ok o ∧ ReportsMv .gamma moments [14, 1] ∧
    IsObjective .gamma o.names o.attr (fun l => [(((moments l).zip [14, 1]).map fun vt => (vt.1 - vt.2) ^ 2).sum]) G ∧
    Finds opt G (startAt o o) (freeBounds o MvFam.gamma.box) ∧ MvFam.gamma.Reach 14 1 ∧
    MvFam.gamma.fitted 14 1 = (196, 14) ∧ InBox MvFam.gamma.free [196, 14] := by
  obtain ⟨o, ho⟩ : ∃ o, construct MvFam.gamma.mom.family MvFam.gamma.given = .ok o := by
    simp [construct, MvFam.mom, MomFam.family, MvFam.given, parametrize, gammaLikeParam, anyNotNone, Except.ok_bind',
      Except.pure_eq]
  have hbox := mv_free .gamma o ho
  have he : eps < 1 := by unfold eps; norm_num
  have hin : InBox MvFam.gamma.free [196, 14] := by
    refine ⟨rfl, fun i hi _ => ?_⟩
    simp only [List.length_cons, List.length_nil] at hi
    interval_cases i <;> simp [MvFam.free, MvFam.box] <;> linarith
  have hm : momTable .gamma [some 196, some 14] = [14, 1] := by
    unfold momTable
    simp only [List.map_cons, List.map_nil, Option.getD_some]
    rw [if_pos ⟨by simp only [Admissible]; norm_num, trivial⟩]
    simp only [tMean, tVar, gammaMean, gammaVar]
    norm_num
  set res : List (Option ℝ) → List ℝ := fun l =>
    [(((momTable .gamma l).zip [14, 1]).map fun vt => (vt.1 - vt.2) ^ 2).sum] with hres
  set G : List ℝ → Except Err (List ℝ) := fun x => if x.length = 2 then
    .ok (res (x.map some)) else .error .valueError with hG
  refine ⟨o, momTable .gamma, fun _ _ => .ok (.ask [1, 1] fun _ => .stop [196, 14]), G, ho,
    momTable_reports _ _ _ (by norm_num), ⟨?_, ?_⟩, ?_, by simp only [MvFam.Reach]; norm_num,
    by simp only [MvFam.fitted]; norm_num, hin⟩
  · intro cand kvs hk
    simp [construct, MvFam.mom, MomFam.family, MvFam.given, parametrize, gammaLikeParam, anyNotNone, allNotNone, blank,
      Obj.setAll, Obj.set, Except.ok_bind', Except.pure_eq] at ho
    subst ho
    obtain ⟨k1, k2, k3⟩ := hk
    match kvs, k1, k2, k3 with
    | [(a, m), (b, n)], k1, k2, k3 =>
      simp only [List.map_cons, List.map_nil, List.cons.injEq, and_true] at k1
      obtain ⟨rfl, rfl⟩ := k1
      simp [Function.update] at k3
      subst k3
      simp [hG, construct, parametrize, gammaLikeParam, gammaUpdate, anyNotNone, allNotNone, blank, Obj.setAll, Obj.set,
        List.lookup, Except.map, law, lawAttrs, Function.update, hres, Except.ok_bind', Except.pure_eq]
  · intro cand hc
    simp [construct, MvFam.mom, MomFam.family, MvFam.given, parametrize, gammaLikeParam, anyNotNone, allNotNone, blank,
      Obj.setAll, Obj.set, Except.ok_bind', Except.pure_eq] at ho
    subst ho
    simp [Function.update] at hc
    simp [hG, hc]
  · rw [hbox]
    have hzero : res [some 196, some 14] = [0] := by
      simp only [hres, hm]
      norm_num
    refine ⟨_, rfl, [196, 14], [0], by simp [answer, hG], hin, ?_, ?_⟩
    · rw [← hzero]; simp [hG]
    · intro y _ r' _
      have : 0 ≤ cost r' := List.sum_nonneg (by
        intro a ha
        obtain ⟨b, -, rfl⟩ := List.mem_map.1 ha
        positivity)
      simpa [cost] using this

/-- the same target and a Poisson: the parameter returned is 15/2, half the mean asked for -/
example : ∃ (o : Obj) (moments : List (Option ℝ) → List ℝ) (opt : Optimiser) (G : List ℝ → Except Err (List ℝ)),
    construct LineFam.poisson.mom.family (fun _ => none) = .ok o ∧ ReportsMv .poisson moments [14, 1] ∧
    IsObjective (.simple .poisson) o.names o.attr
      (fun l => [(((moments l).zip [14, 1]).map fun vt => (vt.1 - vt.2) ^ 2).sum]) G ∧
    Finds opt G (startAt o o) (freeBounds o [(((eps : ℝ) : EReal), ⊤)]) ∧
    max eps ((14 + LineFam.poisson.ratio * 1) / (1 + LineFam.poisson.ratio ^ 2)) = 15 / 2 := by
  obtain ⟨o, ho⟩ : ∃ o, construct LineFam.poisson.mom.family (fun _ => none) = .ok o := ⟨_, rfl⟩
  have hbox := line_free .poisson o ho
  have he : eps < 1 := by unfold eps; norm_num
  have hep := mv_eps
  have hm : ∀ x, 0 < x → momTable .poisson [some x] = [x, x] := by
    intro x hx
    unfold momTable
    simp only [List.map_cons, List.map_nil, Option.getD_some]
    rw [if_pos ⟨hx, trivial⟩]
    rfl
  set res : List (Option ℝ) → List ℝ := fun l =>
    [(((momTable .poisson l).zip [14, 1]).map fun vt => (vt.1 - vt.2) ^ 2).sum] with hres
  set G : List ℝ → Except Err (List ℝ) := fun x => if x.length = 1 then
    .ok (res (x.map some)) else .error .valueError with hG
  refine ⟨o, momTable .poisson, fun _ _ => .ok (.ask [1] fun _ => .stop [15 / 2]), G, ho,
    momTable_reports _ _ _ (by norm_num), ⟨?_, ?_⟩, ?_, ?_⟩
  · intro cand kvs hk
    simp [construct, LineFam.mom, MomFam.family, parametrize, simpleParam, simpleFam, allNotNone, blank, Obj.setAll,
      Obj.set] at ho
    subst ho
    obtain ⟨k1, k2, k3⟩ := hk
    match kvs, k1, k2, k3 with
    | [(a, v)], k1, k2, k3 =>
      simp only [List.map_cons, List.map_nil, List.cons.injEq, and_true] at k1
      subst k1
      simp [Function.update] at k3
      subst k3
      simp [hG, construct, parametrize, simpleParam, simpleFam, simpleUpdate, allNotNone, blank, Obj.setAll, Obj.set,
        List.lookup, Except.map, law, lawAttrs, Function.update, hres]
  · intro cand hc
    simp [construct, LineFam.mom, MomFam.family, parametrize, simpleParam, simpleFam, allNotNone, blank, Obj.setAll,
      Obj.set] at ho
    subst ho
    simp [Function.update] at hc
    simp [hG, hc]
  · rw [hbox]
    have hval : ∀ v : ℝ, 0 < v → res [some v] = [(v - 14) ^ 2 + (v - 1) ^ 2] := by
      intro v hv
      simp [hres, hm v hv]
    refine ⟨_, rfl, [15 / 2], res [some (15 / 2)], by simp [answer, hG], (half_in _).2 (by linarith), by simp [hG], ?_⟩
    intro y hy' r' hr
    by_cases hy : y.length = 1
    · match y, hy with
      | [v], _ =>
        have hv := hep.trans_le ((half_in v).1 hy')
        simp only [hG, List.length_cons, List.length_nil, List.map_cons, List.map_nil, hval v hv, zero_add, if_true,
          Except.ok.injEq] at hr
        rw [← hr, hval _ (by norm_num)]
        simp only [cost, List.map_cons, List.map_nil, List.sum_cons, List.sum_nil, add_zero]
        refine pow_le_pow_left₀ (by positivity) ?_ 2
        nlinarith [sq_nonneg (v - 15 / 2)]
    · simp [hG, hy] at hr
  · simp only [LineFam.ratio]
    rw [max_eq_right] <;> norm_num
    linarith

/-- the same target and an Exponential: the mean returned is 2 (the scale 2 solves the cubic equation), not 14 -/
example : 2 * HalfFam.exponential.unitVar ^ 2 * 2 ^ 3 + (HalfFam.exponential.unitMean ^ 2 - 2 * HalfFam.exponential.unitVar * 1)
      * 2 = HalfFam.exponential.unitMean * 14 ∧ HalfFam.exponential.scale (1 / 2) = 2 := by
  simp only [HalfFam.unitVar, HalfFam.unitMean, HalfFam.scale]; norm_num

example : ∃ (o : Obj) (moments : List (Option ℝ) → List ℝ) (opt : Optimiser) (G : List ℝ → Except Err (List ℝ)),
    construct .exponential HalfFam.exponential.given = .ok o ∧
    (∀ x, 0 < x → ∀ m v, HasMoments (ofPdf (HalfFam.exponential.pdf (HalfFam.exponential.scale x))) m v →
      moments (HalfFam.exponential.values x) = [m, v]) ∧
    IsObjective .exponential o.names o.attr
      (fun l => [(((moments l).zip [14, 1]).map fun vt => (vt.1 - vt.2) ^ 2).sum]) G ∧
    Finds opt G (startAt o o) (freeBounds o HalfFam.exponential.box) := by
  obtain ⟨o, ho⟩ : ∃ o, construct .exponential HalfFam.exponential.given = .ok o := ⟨_, rfl⟩
  have hbox := half_free .exponential o ho
  have hep := mv_eps
  set mo : List (Option ℝ) → List ℝ := fun l => [1 / (l[0]?.join).getD 0, (1 / (l[0]?.join).getD 0) ^ 2] with hmo
  set res : List (Option ℝ) → List ℝ := fun l =>
    [(((mo l).zip [14, 1]).map fun vt => (vt.1 - vt.2) ^ 2).sum] with hres
  set G : List ℝ → Except Err (List ℝ) := fun x => if x.length = 1 then
    .ok (res (x.map some)) else .error .valueError with hG
  refine ⟨o, mo, fun _ _ => .ok (.ask [1] fun _ => .stop [1 / 2]), G, ho, ?_, ⟨?_, ?_⟩, ?_⟩
  · intro x hx m v hm
    obtain ⟨rfl, rfl⟩ := mv_unique (half_mv .exponential trivial _ (by simp only [HalfFam.scale]; positivity)) hm
    simp [hmo, HalfFam.values, HalfFam.unitMean, HalfFam.unitVar, HalfFam.scale]
  · intro cand kvs hk
    simp [construct, HalfFam.given, parametrize, exponentialParam, allNotNone, blank, Obj.setAll, Obj.set, Except.ok_bind',
      Except.pure_eq] at ho
    subst ho
    obtain ⟨k1, k2, k3⟩ := hk
    match kvs, k1, k2, k3 with
    | [(a, v)], k1, k2, k3 =>
      simp only [List.map_cons, List.map_nil, List.cons.injEq, and_true] at k1
      subst k1
      simp [Function.update] at k3
      subst k3
      simp [hG, construct, parametrize, exponentialParam, exponentialUpdate, allNotNone, blank, Obj.setAll, Obj.set,
        List.lookup, Except.map, law, lawAttrs, Function.update, hres, Except.ok_bind', Except.pure_eq]
  · intro cand hc
    simp [construct, HalfFam.given, parametrize, exponentialParam, allNotNone, blank, Obj.setAll, Obj.set, Except.ok_bind',
      Except.pure_eq] at ho
    subst ho
    simp [Function.update] at hc
    simp [hG, hc]
  · rw [hbox]
    have hval : ∀ v : ℝ, res [some v] = [(1 / v - 14) ^ 2 + ((1 / v) ^ 2 - 1) ^ 2] := by
      intro v
      simp [hres, hmo]
    refine ⟨_, rfl, [1 / 2], res [some (1 / 2)], by simp [answer, hG], (half_in _).2 (by unfold eps; norm_num), by simp [hG], ?_⟩
    intro y _ r' hr
    by_cases hy : y.length = 1
    · match y, hy with
      | [v], _ =>
        simp only [hG, List.length_cons, List.length_nil, List.map_cons, List.map_nil, hval v, zero_add, if_true,
          Except.ok.injEq] at hr
        rw [← hr, hval]
        simp only [cost, List.map_cons, List.map_nil, List.sum_cons, List.sum_nil, add_zero]
        refine pow_le_pow_left₀ (by positivity) ?_ 2
        generalize 1 / v = u
        norm_num
        nlinarith [mul_nonneg (sq_nonneg (u - 2)) (show 0 ≤ (u + 2) ^ 2 + 7 by positivity)]
    · simp [hG, hy] at hr

end Verif.Props
