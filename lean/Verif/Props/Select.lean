import Verif.Model.Optim
import Verif.Spec.Optim
import Verif.Spec.Modifier
import Verif.Lemmas.Modifier
import Verif.Lemmas.ModifierBase
import Mathlib.Analysis.SpecificLimits.Basic

/-!
# C27, C28, C29: selecting optimiser results, ranking candidates, the small-sample penalty
-/

namespace Verif.Props
open Verif Verif.Param Verif.Optim Verif.Spec Verif.Modifier

/-! ## C27 -/

/-- the run satisfies the constraint within 1e-4 and `v` is its objective value (minus the entropy) -/
def Feasible (err : List ℝ → Option ℝ) (r : Opt) (v : EReal) : Prop :=
  (∃ e, err r.x = some e ∧ e < 1 / 10000) ∧ r.value = some v

theorem pickBest_spec (err : List ℝ → Option ℝ) (l : List Opt) (best : Option Opt) (ent : EReal) :
    (pickBest err best ent l = best ∧ ∀ r ∈ l, ∀ v, Feasible err r v → -v ≤ ent) ∨
    ∃ (i : ℕ) (r : Opt) (v : EReal), pickBest err best ent l = some r ∧ l[i]? = some r ∧
      Feasible err r v ∧ ent < -v ∧ (∀ r' ∈ l, ∀ v', Feasible err r' v' → v ≤ v') ∧
      ∀ j < i, ∀ r', l[j]? = some r' → ∀ v', Feasible err r' v' → v < v' := by
  induction l generalizing best ent with
  | nil => left; simp [pickBest]
  | cons a l ih =>
    have skip : (∀ v, Feasible err a v → -v ≤ ent) → pickBest err best ent (a :: l) = pickBest err best ent l →
        (pickBest err best ent (a :: l) = best ∧ ∀ r ∈ a :: l, ∀ v, Feasible err r v → -v ≤ ent) ∨
        ∃ (i : ℕ) (r : Opt) (v : EReal), pickBest err best ent (a :: l) = some r ∧
          (a :: l)[i]? = some r ∧
          Feasible err r v ∧ ent < -v ∧ (∀ r' ∈ a :: l, ∀ v', Feasible err r' v' → v ≤ v') ∧
          ∀ j < i, ∀ r', (a :: l)[j]? = some r' → ∀ v', Feasible err r' v' → v < v' := by
      intro ha he
      rw [he]
      rcases ih best ent with ⟨h1, h2⟩ | ⟨i, r, v, h1, h2, h3, h4, h5, h6⟩
      · left
        refine ⟨h1, ?_⟩
        intro r hr
        rcases List.mem_cons.mp hr with rfl | hr
        · exact ha
        · exact h2 r hr
      · right
        have key : ∀ v', Feasible err a v' → v < v' := by
          intro v' hv'
          exact EReal.neg_lt_neg_iff.mp (lt_of_le_of_lt (ha v' hv') h4)
        refine ⟨i + 1, r, v, h1, by simpa using h2, h3, h4, ?_, ?_⟩
        · intro r' hr' v' hv'
          rcases List.mem_cons.mp hr' with rfl | hr'
          · exact (key v' hv').le
          · exact h5 r' hr' v' hv'
        · intro j hj r' hr' v' hv'
          cases j with
          | zero => simp at hr'; subst hr'; exact key v' hv'
          | succ j => exact h6 j (by omega) r' (by simpa using hr') v' hv'
    cases he : err a.x with
    | none =>
      apply skip
      · rintro v ⟨⟨e, h, -⟩, -⟩; rw [he] at h; simp at h
      · simp [pickBest, he]
    | some e =>
      cases hv : a.value with
      | none =>
        apply skip
        · rintro v ⟨-, h⟩; rw [hv] at h; simp at h
        · simp [pickBest, he, hv]
      | some v =>
        by_cases h1 : e < 1 / 10000
        · by_cases h2 : -v > ent
          · have hstep : pickBest err best ent (a :: l) = pickBest err (some a) (-v) l := by
              rw [pickBest]; simp only [he, hv]; rw [if_pos h1, if_pos h2]
            have hfa : Feasible err a v := ⟨⟨e, he, h1⟩, hv⟩
            right
            rw [hstep]
            rcases ih (some a) (-v) with ⟨g1, g2⟩ | ⟨i, r, w, g1, g2, g3, g4, g5, g6⟩
            · refine ⟨0, a, v, g1, rfl, hfa, h2, ?_, by simp⟩
              intro r' hr' v' hv'
              rcases List.mem_cons.mp hr' with rfl | hr'
              · rw [hv'.2] at hv; simp at hv; exact hv.ge
              · exact EReal.neg_le_neg_iff.mp (g2 r' hr' v' hv')
            · have hvw : w < v := EReal.neg_lt_neg_iff.mp g4
              refine ⟨i + 1, r, w, g1, by simpa using g2, g3, lt_trans h2 g4, ?_, ?_⟩
              · intro r' hr' v' hv'
                rcases List.mem_cons.mp hr' with rfl | hr'
                · rw [hv'.2] at hv; simp at hv; rw [hv]; exact hvw.le
                · exact g5 r' hr' v' hv'
              · intro j hj r' hr' v' hv'
                cases j with
                | zero =>
                  simp at hr'; subst hr'
                  rw [hv'.2] at hv; simp at hv; rw [hv]; exact hvw
                | succ j => exact g6 j (by omega) r' (by simpa using hr') v' hv'
          · apply skip
            · rintro v' ⟨-, h⟩
              rw [hv] at h; simp at h; rw [← h]; exact not_lt.mp h2
            · rw [pickBest]; simp only [he, hv]; rw [if_pos h1, if_neg h2]
        · apply skip
          · rintro v' ⟨⟨e', h, h'⟩, -⟩
            rw [he] at h; simp at h; rw [← h] at h'; exact absurd h' h1
          · rw [pickBest]; simp only [he, hv]; rw [if_neg h1]

theorem collect_spec (done : List Opt) (rest : List (Except Err Opt))
    (h : ∀ r, rest.head? = some r → ∃ e, r = .error e) :
    collect (done.map .ok ++ rest) = done := by
  induction done with
  | nil =>
    cases rest with
    | nil => rfl
    | cons a rest => obtain ⟨e, rfl⟩ := h a rfl; rfl
  | cons a done ih => simp [collect, ih]

/-- C27: let `done` be the runs completed before the first failure.  If one of them is feasible (with
an entropy that is not NaN or minus infinity) the run used is feasible, has the largest entropy among
the feasible ones, and is the first such. -/
theorem maxent_selects (err : List ℝ → Option ℝ) (done : List Opt) (rest : List (Except Err Opt))
    (hrest : ∀ r, rest.head? = some r → ∃ e, r = .error e)
    (r₀ : Opt) (h₀ : r₀ ∈ done) (v₀ : EReal) (hv₀ : Feasible err r₀ v₀) (hfin : v₀ ≠ ⊤) :
    ∃ (i : ℕ) (r : Opt) (v : EReal), selectOpt err (done.map .ok ++ rest) = .ok r ∧
      done[i]? = some r ∧ Feasible err r v ∧
      (∀ r' ∈ done, ∀ v', Feasible err r' v' → v ≤ v') ∧
      ∀ j < i, ∀ r', done[j]? = some r' → ∀ v', Feasible err r' v' → v < v' := by
  unfold selectOpt
  rw [collect_spec done rest hrest]
  rcases pickBest_spec err done none ⊥ with ⟨-, h2⟩ | ⟨i, r, v, h1, h2, h3, -, h5, h6⟩
  · have := h2 r₀ h₀ v₀ hv₀
    rw [le_bot_iff, EReal.neg_eq_bot_iff] at this
    exact absurd this hfin
  · exact ⟨i, r, v, by simp [h1], h2, h3, h5, h6⟩

/-- C27: with no feasible run the first one is used; with no completed run at all the call fails with
an `IndexError`. -/
theorem maxent_fallback (err : List ℝ → Option ℝ) (done : List Opt) (rest : List (Except Err Opt))
    (hrest : ∀ r, rest.head? = some r → ∃ e, r = .error e)
    (h : ∀ r ∈ done, ∀ v, ¬ Feasible err r v) :
    selectOpt err (done.map .ok ++ rest) = match done with
      | [] => .error .indexError
      | r :: _ => .ok r := by
  unfold selectOpt
  rw [collect_spec done rest hrest]
  rcases pickBest_spec err done none ⊥ with ⟨h1, -⟩ | ⟨i, r, v, -, h2, h3, -⟩
  · cases done <;> simp [h1]
  · exact absurd h3 (h r (List.mem_of_getElem? h2) v)

/-- C27: the distribution is left with the parameters of the run used. -/
theorem maxent_leaves_selected (f : Family) (names : List String) (noneIdx : List ℕ) (fixed : List ℝ)
    (err : List ℝ → Option ℝ) (runs : List (Except Err Opt)) (o o' : Obj) (r : Opt)
    (h : optimizeMaxEnt f names noneIdx fixed err runs o = .ok (r, o')) :
    selectOpt err runs = .ok r ∧ applyCandidate f names noneIdx fixed r.x o = .ok o' := by
  unfold optimizeMaxEnt at h
  cases h1 : selectOpt err runs with
  | error e => simp [h1] at h
  | ok r' =>
    cases h2 : applyCandidate f names noneIdx fixed r'.x o with
    | error e => simp [h1, h2] at h
    | ok o'' =>
      simp [h1, h2] at h
      obtain ⟨rfl, rfl⟩ := h
      exact ⟨rfl, h2⟩

/-- two feasible runs, one infeasible with the largest entropy, then a failure: the better feasible
one is used -/
example : ∃ err : List ℝ → Option ℝ, ∃ a b c : Opt,
    selectOpt err ([a, b, c].map .ok ++ [.error .runtimeError]) = .ok b ∧
    Feasible err a (-1) ∧ Feasible err b (-2) ∧ c.value = some (-3) := by
  refine ⟨fun x => some (x.headD 0), ⟨[0], some (-1)⟩, ⟨[0], some (-2)⟩, ⟨[1], some (-3)⟩, ?_, ?_, ?_, rfl⟩
  · have h1 : (⊥ : EReal) < 1 := EReal.bot_lt_coe 1
    have h2 : (1 : EReal) < 2 := by exact_mod_cast (by norm_num : (1 : ℝ) < 2)
    have h3 : ¬ ((1 : ℝ) < 1 / 10000) := by norm_num
    have h4 : (0 : ℝ) < 1 / 10000 := by norm_num
    simp only [List.map_cons, List.map_nil, List.cons_append, List.nil_append, selectOpt, collect,
      pickBest, List.headD_cons, neg_neg, if_pos h1, if_pos h2, if_pos h4, if_neg h3]
  · exact ⟨⟨0, rfl, by norm_num⟩, rfl⟩
  · exact ⟨⟨0, rfl, by norm_num⟩, rfl⟩

/-- C27: the constraint is the probability of the closed interval minus the requested mass (discrete
distributions with integer bounds, continuous ones with any). -/
theorem constraint_is_mass (b : Base) (lower upper mass : ℝ) (hle : lower ≤ upper)
    (hl : b.discrete = true → ∃ n : ℤ, lower = n) :
    probBound b lower upper mass none = b.law.real (Set.Icc lower upper) - mass := by
  have hw : b.discrete = true → Whole (lower : EReal) := fun h => by
    obtain ⟨n, rfl⟩ := hl h
    exact .inr (.inr ⟨n, rfl⟩)
  have ha : (adjustLower b.discrete (lower : EReal)) = ((if b.discrete then lower - 1 else lower : ℝ) : EReal) := by
    unfold adjustLower
    split <;> push_cast <;> rfl
  have h1 := b.mass_between (l := lower) (u := upper) (e := upper) hw
    ((adjust_le _ _).trans (by exact_mod_cast hle)) le_rfl
  rw [ha] at h1
  unfold probBound
  dsimp only
  rw [← h1]
  congr 2
  ext y
  simp only [between, Set.mem_inter_iff, Set.mem_ofPred_eq, Set.mem_Icc]
  norm_cast
  tauto

/-- the quantity checked with a fixed statistic mixes two errors: it can be zero although the mass is
wrong, because the distance of the statistic is subtracted -/
theorem fixed_stat_error_cancels :
    ∃ (b : Base) (lower upper mass d : ℝ), lower < upper ∧ 0 < mass ∧ mass ≤ 1 ∧
      probBound b lower upper mass (some d) = 0 ∧ d ≠ 0 ∧
      b.law.real (Set.Icc lower upper) ≠ mass := by
  have h : (0 : ℝ) < 1 := by norm_num
  have hr : (unif 0 1 h).law.real (Set.Icc (0 : ℝ) 1) = 1 := by
    rw [unif_real 0 1 h _ measurableSet_Icc, Set.inter_self]
    simp [MeasureTheory.measureReal_def, Real.volume_Icc]
  have h0 := constraint_is_mass (unif 0 1 h) 0 1 (1 / 2) (by norm_num) (by
    intro hd; exact absurd hd (by simp [unif, densityBase]))
  refine ⟨unif 0 1 h, 0, 1, 1 / 2, 1 / 2, by norm_num, by norm_num, by norm_num, ?_, by norm_num, ?_⟩
  · unfold probBound at h0 ⊢
    dsimp only at h0 ⊢
    rw [h0, hr]
    norm_num
  · rw [hr]; norm_num

/-! ## C28 -/

theorem FirstMin.unique {l : List (Option EReal)} {i j : ℕ} (hi : FirstMin l i) (hj : FirstMin l j) :
    i = j := by
  obtain ⟨v, h1, -, h3, h4⟩ := hi
  obtain ⟨w, g1, -, g3, g4⟩ := hj
  by_contra hne
  rcases Nat.lt_or_gt_of_ne hne with h | h
  · exact absurd (h3 w (List.mem_of_getElem? g1)) (not_le.mpr (g4 i h v h1))
  · exact absurd (g3 v (List.mem_of_getElem? h1)) (not_le.mpr (h4 j h w g1))

/-- updates with a list of (loss, distribution) pairs -/
noncomputable def runLoss {α : Type} (l : List (Option EReal × α)) : Loss α :=
  l.foldl (fun s ld => s.update ld.1 ld.2) Loss.init

theorem runLoss_snoc {α : Type} (l : List (Option EReal × α)) (a : Option EReal × α) :
    runLoss (l ++ [a]) = (runLoss l).update a.1 a.2 := by
  simp [runLoss, List.foldl_append]

/-- C28: after any sequence of fits the reported best is the first one with the smallest loss among
those below infinity, and nothing is reported when there is none; the losses are recorded in order. -/
theorem best_is_first_min {α : Type} (l : List (Option EReal × α)) :
    (runLoss l).losses = l.map Prod.fst ∧ (runLoss l).dists = l.map Prod.snd ∧
    ((∃ i, FirstMin (l.map Prod.fst) i ∧ (runLoss l).dist = (l[i]?).map Prod.snd ∧
        (l[i]?).map Prod.fst = some (some (runLoss l).old)) ∨
      ((∀ v, some v ∈ l.map Prod.fst → v = ⊤) ∧ (runLoss l).dist = none ∧ (runLoss l).old = ⊤)) := by
  induction l using List.reverseRecOn with
  | nil => simp [runLoss, Loss.init]
  | append_singleton l a ih =>
    obtain ⟨h1, h2, h3⟩ := ih
    rw [runLoss_snoc]
    obtain ⟨lv, d⟩ := a
    refine ⟨?_, ?_, ?_⟩
    · unfold Loss.update; dsimp only
      cases lv with
      | none => simp [h1]
      | some v => by_cases h : v < (runLoss l).old <;> simp [h1, h]
    · unfold Loss.update; dsimp only
      cases lv with
      | none => simp [h2]
      | some v => by_cases h : v < (runLoss l).old <;> simp [h2, h]
    · have keep : ∀ i, FirstMin (l.map Prod.fst) i →
          (l[i]?).map Prod.fst = some (some (runLoss l).old) →
          (∀ w, lv = some w → (runLoss l).old ≤ w) →
          FirstMin ((l ++ [(lv, d)]).map Prod.fst) i ∧ (l ++ [(lv, d)])[i]? = l[i]? := by
        rintro i ⟨v, g1, g2, g3, g4⟩ hold hw
        have hi : i < l.length := by
          by_contra hc
          rw [List.getElem?_eq_none (by simpa using hc)] at g1
          simp at g1
        have hv : v = (runLoss l).old := by
          rw [List.getElem?_map, hold] at g1
          simpa using g1.symm
        refine ⟨⟨v, ?_, g2, ?_, ?_⟩, List.getElem?_append_left hi⟩
        · rw [List.map_append, List.getElem?_append_left (by simpa using hi)]; exact g1
        · intro w hw'
          rw [List.map_append, List.mem_append] at hw'
          rcases hw' with hw' | hw'
          · exact g3 w hw'
          · simp at hw'; rw [hv]; exact hw w hw'.symm
        · intro j hj w hjw
          rw [List.map_append, List.getElem?_append_left (by simp; omega)] at hjw
          exact g4 j hj w hjw
      by_cases hlt : ∃ v, lv = some v ∧ v < (runLoss l).old
      · obtain ⟨v, rfl, hlt⟩ := hlt
        left
        have hup : (runLoss l).update (some v) d = ⟨v, some d, (runLoss l).losses ++ [some v],
            (runLoss l).dists ++ [d]⟩ := by simp [Loss.update, hlt]
        have hall : ∀ w, some w ∈ l.map Prod.fst → (runLoss l).old ≤ w := by
          intro w hw
          rcases h3 with ⟨i, ⟨u, g1, g2, g3, g4⟩, -, hold⟩ | ⟨g, -, hold⟩
          · have : u = (runLoss l).old := by
              rw [List.getElem?_map, hold] at g1
              simpa using g1.symm
            rw [← this]; exact g3 w hw
          · rw [g w hw, hold]
        refine ⟨l.length, ⟨v, by simp, lt_of_lt_of_le hlt le_top, ?_, ?_⟩, by simp [hup], by simp [hup]⟩
        · intro w hw
          rw [List.map_append, List.mem_append] at hw
          rcases hw with hw | hw
          · exact hlt.le.trans (hall w hw)
          · simp at hw; exact hw.ge
        · intro j hj w hw
          rw [List.map_append, List.getElem?_append_left (by simpa using hj)] at hw
          exact lt_of_lt_of_le hlt (hall w (List.mem_of_getElem? hw))
      · push Not at hlt
        have hd : ((runLoss l).update lv d).dist = (runLoss l).dist ∧
            ((runLoss l).update lv d).old = (runLoss l).old := by
          unfold Loss.update
          cases lv with
          | none => simp
          | some v => simp [not_lt.mpr (hlt v rfl)]
        rw [hd.1, hd.2]
        rcases h3 with ⟨i, g1, g2, g3⟩ | ⟨g1, g2, g3⟩
        · left
          obtain ⟨k1, k2⟩ := keep i g1 g3 hlt
          exact ⟨i, k1, by rw [k2]; exact g2, by rw [k2]; exact g3⟩
        · right
          refine ⟨?_, g2, g3⟩
          intro v hv
          rw [List.map_append, List.mem_append] at hv
          rcases hv with hv | hv
          · exact g1 v hv
          · simp at hv
            have := hlt v hv.symm
            rw [g3] at this
            exact top_le_iff.mp this

/-- loss of one candidate of the sample fit, given its penalty -/
noncomputable def sampleLoss (n : ℕ) (d : Cand) : Option EReal :=
  if d.compatible then d.nll.map fun v => v + (((d.k : ℝ) + (d.k + 1) * d.k / (n - d.k - 1) : ℝ) : EReal)
  else some ⊤

/-- C28, sample fit: whenever no compatible candidate has exactly `n - 1` parameters, all candidates
are ranked by negative log-likelihood plus penalty, incompatible ones with infinite loss. -/
theorem fit_to_sample_ranks (n : ℕ) (l : List Cand)
    (h : ∀ d ∈ l, d.compatible = true → n ≠ d.k + 1) :
    fitToSample n l Loss.init = .ok (runLoss (l.map fun d => (sampleLoss n d, d))) := by
  have main : ∀ (l : List Cand) (s : Loss Cand), (∀ d ∈ l, d.compatible = true → n ≠ d.k + 1) →
      fitToSample n l s = .ok ((l.map fun d => (sampleLoss n d, d)).foldl
        (fun s ld => s.update ld.1 ld.2) s) := by
    intro l
    induction l with
    | nil => intro s _; rfl
    | cons d l ih =>
      intro s h
      have hl := fun d hd => h d (List.mem_cons_of_mem _ hd)
      unfold fitToSample
      by_cases hc : d.compatible = true
      · have hn := h d (by simp) hc
        have hne : (-(d.k : ℝ) + n - 1) ≠ 0 := by
          intro h0
          apply hn
          have : (n : ℝ) = d.k + 1 := by linarith
          exact_mod_cast this
        have heq : (n : ℝ) - d.k - 1 = -(d.k : ℝ) + n - 1 := by ring
        rw [if_pos hc]
        simp only [getPenalization, pyDiv, if_neg hne, Except.ok_bind', Except.pure_eq]
        rw [ih _ hl, List.map_cons, List.foldl_cons]
        congr 3
        simp only [sampleLoss, if_pos hc, heq]
      · rw [if_neg hc, ih _ hl, List.map_cons, List.foldl_cons]
        simp [sampleLoss, hc]
  exact main l Loss.init h

/-- C28 fails at the pole of the penalty: a compatible candidate with `n - 1` parameters aborts the
whole ranking with `ZeroDivisionError`. -/
theorem ranking_aborts (n : ℕ) (pre post : List Cand) (d : Cand) (hd : d.compatible = true)
    (hn : n = d.k + 1) (hpre : ∀ c ∈ pre, c.compatible = true → n ≠ c.k + 1) (s : Loss Cand) :
    fitToSample n (pre ++ d :: post) s = .error .zeroDivision := by
  induction pre generalizing s with
  | nil =>
    have : (-(d.k : ℝ) + n - 1) = 0 := by rw [hn]; push_cast; ring
    rw [List.nil_append, fitToSample, if_pos hd]
    simp only [getPenalization, pyDiv, if_pos this, Except.error_bind']
  | cons c pre ih =>
    have hl := fun d hd => hpre d (List.mem_cons_of_mem _ hd)
    rw [List.cons_append, fitToSample]
    by_cases hc : c.compatible = true
    · have hne : (-(c.k : ℝ) + n - 1) ≠ 0 := by
        intro h0
        apply hpre c (by simp) hc
        have : (n : ℝ) = c.k + 1 := by linarith
        exact_mod_cast this
      rw [if_pos hc]
      simp only [getPenalization, pyDiv, if_neg hne, Except.ok_bind', Except.pure_eq]
      exact ih hl _
    · rw [if_neg hc]
      exact ih hl _

example : ∃ l : List Cand, (∀ d ∈ l, d.compatible = true → 10 ≠ d.k + 1) ∧ l.length = 3 :=
  ⟨[⟨true, some 3, 2⟩, ⟨false, some 0, 9⟩, ⟨true, none, 3⟩], by simp, rfl⟩

/-- C28, fits to a histogram: only compatible candidates take part. -/
theorem fit_to_epdf_ranks (l : List Cand) :
    fitToEpdf l Loss.init = runLoss ((l.filter (·.compatible)).map fun d => (d.nll, d)) := by
  have main : ∀ (l : List Cand) (s : Loss Cand), fitToEpdf l s =
      ((l.filter (·.compatible)).map fun d => (d.nll, d)).foldl (fun s ld => s.update ld.1 ld.2) s := by
    intro l
    induction l with
    | nil => intro s; rfl
    | cons d l ih =>
      intro s
      by_cases hc : d.compatible = true
      · simp [fitToEpdf, hc, ih]
      · simp [fitToEpdf, hc, ih]
  exact main l Loss.init

/-- C28, quartile fits. -/
theorem fit_to_quartile_ranks (l : List Cand) :
    fitToQuartile l ⊤ none = (runLoss ((l.filter (·.compatible)).map fun d => (d.nll, d))).dist := by
  have main : ∀ (l : List Cand) (s : Loss Cand), fitToQuartile l s.old s.dist =
      (((l.filter (·.compatible)).map fun d => (d.nll, d)).foldl
        (fun s ld => s.update ld.1 ld.2) s).dist := by
    intro l
    induction l with
    | nil => intro s; rfl
    | cons d l ih =>
      intro s
      by_cases hc : d.compatible = true
      · simp only [List.filter_cons, hc, if_true, List.map_cons, List.foldl_cons]
        rw [← ih]
        cases hv : d.nll with
        | none => simp [fitToQuartile, hc, hv, Loss.update]
        | some v =>
          by_cases h : v < s.old
          · simp [fitToQuartile, hc, hv, Loss.update, h]
          · simp [fitToQuartile, hc, hv, Loss.update, h]
      · simp [fitToQuartile, hc, ih]
  exact main l Loss.init

/-- C28: whatever sorting algorithm produces the index list handed back by `mle`, as long as it is a
permutation of the indexes sorted by loss, its first entry has the smallest loss. -/
theorem mle_first_is_best (losses : List EReal) (idx : List ℕ)
    (hperm : idx.Perm (List.range losses.length))
    (hsort : (idx.map fun i => losses[i]?).Pairwise fun a b => ∀ x y, a = some x → b = some y → x ≤ y)
    (i : ℕ) (hi : idx.head? = some i) :
    ∃ v, losses[i]? = some v ∧ ∀ w ∈ losses, v ≤ w := by
  cases idx with
  | nil => simp at hi
  | cons a idx =>
    simp at hi
    subst hi
    have ha : a < losses.length := by
      have := hperm.mem_iff.mp (List.mem_cons_self : a ∈ a :: idx)
      simpa using this
    refine ⟨losses[a], List.getElem?_eq_getElem ha, ?_⟩
    intro w hw
    obtain ⟨j, hj, rfl⟩ := List.mem_iff_getElem.mp hw
    have hmem : j ∈ a :: idx := hperm.mem_iff.mpr (by simpa using hj)
    rw [List.map_cons, List.pairwise_cons] at hsort
    rcases List.mem_cons.mp hmem with rfl | hmem
    · exact le_rfl
    · exact hsort.1 (losses[j]?) (List.mem_map.mpr ⟨j, hmem, rfl⟩) _ _
        (List.getElem?_eq_getElem ha) (List.getElem?_eq_getElem hj)

example : ([1, 0] : List ℕ).Perm (List.range ([2, 1] : List EReal).length) := by decide

/-! ## C29 -/

/-- C29: with more than `k + 1` observations the penalty is half the AICc penalty: adding it to the
negative log-likelihood gives half the AICc. -/
theorem penalty_is_aicc (n k : ℕ) (ll : ℝ) (h : k + 1 < n) :
    Gives (getPenalization n k) fun p => 2 * (-ll + p) = aicc n k ll := by
  have hne : (-(k : ℝ) + n - 1) ≠ 0 := by
    have : (k : ℝ) + 1 < n := by exact_mod_cast h
    linarith
  have hne' : ((n : ℝ) - k - 1) ≠ 0 := by
    intro h0; apply hne; linarith
  refine ⟨(k : ℝ) + ((k : ℝ) + 1) * k / (-k + n - 1), ?_, ?_⟩
  · simp [getPenalization, pyDiv, hne]
  · unfold aicc
    rw [show (-(k : ℝ) + n - 1) = n - k - 1 by ring]
    field_simp
    ring

/-- the penalty as a real number, where it is defined -/
theorem penalty_value (n k : ℕ) (h : k + 1 < n) :
    getPenalization n k = .ok ((k : ℝ) + ((k : ℝ) + 1) * k / (n - k - 1)) := by
  have hne : (-(k : ℝ) + n - 1) ≠ 0 := by
    have : (k : ℝ) + 1 < n := by exact_mod_cast h
    linarith
  simp only [getPenalization, pyDiv, if_neg hne, Except.ok_bind', Except.pure_eq]
  rw [show (-(k : ℝ) + n - 1) = n - k - 1 by ring]

/-- C29: the penalty is positive. -/
theorem penalty_pos (n k : ℕ) (hk : 0 < k) (h : k + 1 < n) : Gives (getPenalization n k) fun p => 0 < p := by
  rw [penalty_value n k h]
  refine ⟨_, rfl, ?_⟩
  have h1 : (0 : ℝ) < k := by exact_mod_cast hk
  have h2 : (0 : ℝ) < n - k - 1 := by
    have : (k : ℝ) + 1 < n := by exact_mod_cast h
    linarith
  positivity

/-- C29: more parameters, larger penalty (same sample size). -/
theorem penalty_increasing (n k k' : ℕ) (hkk : k < k') (h : k' + 1 < n) :
    ∃ p p', getPenalization n k = .ok p ∧ getPenalization n k' = .ok p' ∧ p < p' := by
  refine ⟨_, _, penalty_value n k (by omega), penalty_value n k' h, ?_⟩
  have h0 : (0 : ℝ) ≤ k := by positivity
  have h1 : (k : ℝ) < k' := by exact_mod_cast hkk
  have h2 : (0 : ℝ) < n - k' - 1 := by
    have : (k' : ℝ) + 1 < n := by exact_mod_cast h
    linarith
  have h3 : ((k : ℝ) + 1) * k / (n - k - 1) ≤ ((k' : ℝ) + 1) * k' / (n - k' - 1) := by
    apply div_le_div₀
    · positivity
    · nlinarith
    · exact h2
    · linarith
  linarith

/-- C29: more observations never increase the penalty. -/
theorem penalty_antitone (n n' k : ℕ) (hn : n ≤ n') (h : k + 1 < n) :
    ∃ p p', getPenalization n k = .ok p ∧ getPenalization n' k = .ok p' ∧ p' ≤ p := by
  refine ⟨_, _, penalty_value n k h, penalty_value n' k (by omega), ?_⟩
  have h2 : (0 : ℝ) < n - k - 1 := by
    have : (k : ℝ) + 1 < n := by exact_mod_cast h
    linarith
  have h3 : (n : ℝ) ≤ n' := by exact_mod_cast hn
  have : ((k : ℝ) + 1) * k / (n' - k - 1) ≤ ((k : ℝ) + 1) * k / (n - k - 1) := by
    apply div_le_div_of_nonneg_left _ h2 (by linarith)
    positivity
  linarith

/-- C29: the penalty tends to the AIC penalty as the sample grows. -/
theorem penalty_limit (k : ℕ) :
    ∃ p : ℕ → ℝ, (∀ n, k + 1 < n → getPenalization n k = .ok (p n)) ∧
      Filter.Tendsto p Filter.atTop (nhds (k : ℝ)) := by
  refine ⟨fun n => (k : ℝ) + ((k : ℝ) + 1) * k / (n - k - 1), fun n h => penalty_value n k h, ?_⟩
  have h1 : Filter.Tendsto (fun n : ℕ => (n : ℝ) - k - 1) Filter.atTop Filter.atTop := by
    apply Filter.tendsto_atTop_add_const_right
    apply Filter.tendsto_atTop_add_const_right
    exact tendsto_natCast_atTop_atTop
  have h2 := (h1.const_div_atTop (((k : ℝ) + 1) * k))
  simpa using h2.const_add (k : ℝ)

/-- ten observations, two parameters: the hypotheses of the C29 theorems hold -/
example : (0 < 2 ∧ 2 < 3) ∧ 3 + 1 < 10 := by norm_num

/-- C29 fails outside `n > k + 1`: at `n = k + 1` there is no penalty but an exception, and below it
the "penalty" may be negative (a reward), e.g. one observation and two parameters. -/
theorem penalty_pole (k : ℕ) : getPenalization (k + 1) k = .error .zeroDivision := by
  have : (-(k : ℝ) + ((k + 1 : ℕ) : ℝ) - 1) = 0 := by push_cast; ring
  simp only [getPenalization, pyDiv, if_pos this, Except.error_bind']

theorem penalty_negative : getPenalization 1 2 = .ok (-1) := by
  have : (-((2 : ℕ) : ℝ) + ((1 : ℕ) : ℝ) - 1) ≠ 0 := by norm_num
  simp only [getPenalization, pyDiv, if_neg this, Except.ok_bind', Except.pure_eq]
  norm_num

end Verif.Props
