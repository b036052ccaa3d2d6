import Verif.Model.MleTop
import Verif.Spec.MleTop
import Mathlib.Tactic

set_option linter.unusedSimpArgs false

/-!
# C87: what `mle` does to the objects it is given
-/

namespace Verif.Props
open Verif Verif.Optim Verif.MleTop Verif.Spec

variable {D P : Type}

private lemma notWorse_of_before {a b : Option EReal} (h : before a b) : NotWorse a b := by
  cases a <;> cases b <;> simp_all [before, NotWorse]

/-- The object before the fit: the two families with bounds get those of the sample. -/
def Prepared (m : Methods D) (lo hi : ℝ) (d d1 : D) : Prop :=
  (m.name d ∈ ["BetaScaled", "TruncatedNormal"] → d1 = m.setBounds d lo hi) ∧
  (m.name d ∉ ["BetaScaled", "TruncatedNormal"] → d1 = d)

/-- What is expected for one object: if the sample fits into its support, it is replaced by its maximum likelihood fit,
with the corrected AIC (half of it) as its loss; otherwise it is not fitted and its loss is infinite. -/
def FittedAs (m : Methods D) (sample : List ℝ) (lo hi : ℝ) (d d' : D) (loss : Option EReal) : Prop :=
  ∃ d1, Prepared m lo hi d d1 ∧
    ((m.inside d1 lo hi = true ∧ m.fit d1 sample = .ok d' ∧
        loss = (m.nll d' sample).map fun v => v + (((m.nparams d' : ℝ) +
          ((m.nparams d' : ℝ) + 1) * m.nparams d' / ((sample.length : ℝ) - m.nparams d' - 1) : ℝ) : EReal)) ∨
     (m.inside d1 lo hi = false ∧ d' = d1 ∧ loss = some ⊤))

theorem penalty_eq (n k : ℕ) (c : ℝ) (h : getPenalization n k = .ok c) :
    c = (k : ℝ) + ((k : ℝ) + 1) * k / ((n : ℝ) - k - 1) := by
  unfold getPenalization pyDiv at h
  split at h
  · simp [Except.error_bind'] at h
  · simp only [Except.ok_bind', Except.pure_eq, Except.ok.injEq] at h
    rw [← h]
    congr 2
    ring

theorem prepared_of (m : Methods D) (lo hi : ℝ) (d : D) :
    Prepared m lo hi d (if m.name d ∈ ["BetaScaled", "TruncatedNormal"] then m.setBounds d lo hi else d) := by
  constructor
  · intro h; rw [if_pos h]
  · intro h; rw [if_neg h]

/-- one step of the loop -/
theorem fitAll_cons (m : Methods D) (sample : List ℝ) (lo hi : ℝ) (r : ℕ) (rs : List ℕ) (heap : List D)
    (losses : List (Option EReal)) (h : (fitAll m sample lo hi (r :: rs) heap).2 = .ok losses) :
    ∃ d d' loss rest, heap[r]? = some d ∧ FittedAs m sample lo hi d d' loss ∧
      (fitAll m sample lo hi rs (heap.set r d')).2 = .ok rest ∧ losses = loss :: rest ∧
      (fitAll m sample lo hi (r :: rs) heap).1 = (fitAll m sample lo hi rs (heap.set r d')).1 := by
  rw [fitAll] at h ⊢
  cases hd : heap[r]? with
  | none => rw [hd] at h; simp at h
  | some d =>
    rw [hd] at h
    dsimp only at h ⊢
    have hp := prepared_of m lo hi d
    generalize (if m.name d ∈ ["BetaScaled", "TruncatedNormal"] then m.setBounds d lo hi else d) = d1 at h hp ⊢
    by_cases hin : m.inside d1 lo hi = true
    · rw [if_pos hin] at h ⊢
      cases hf : m.fit d1 sample with
      | error e => rw [hf] at h; simp at h
      | ok f =>
        rw [hf] at h
        dsimp only at h ⊢
        cases hc : getPenalization sample.length (m.nparams f) with
        | error e => rw [hc] at h; simp at h
        | ok c =>
          rw [hc] at h
          dsimp only at h ⊢
          rw [List.set_set] at h ⊢
          cases hr : (fitAll m sample lo hi rs (heap.set r f)).2 with
          | error e => rw [hr] at h; simp [Except.map] at h
          | ok rest =>
            rw [hr] at h
            simp only [Except.map, Except.ok.injEq] at h
            refine ⟨d, f, _, rest, rfl, ⟨d1, hp, .inl ⟨hin, hf, rfl⟩⟩, hr, ?_, rfl⟩
            rw [← h, penalty_eq _ _ _ hc]
    · rw [if_neg hin] at h ⊢
      cases hr : (fitAll m sample lo hi rs (heap.set r d1)).2 with
      | error e => rw [hr] at h; simp [Except.map] at h
      | ok rest =>
        rw [hr] at h
        simp only [Except.map, Except.ok.injEq] at h
        refine ⟨d, d1, some ⊤, rest, rfl, ⟨d1, hp, .inr ⟨by simpa using hin, rfl, rfl⟩⟩, hr, h.symm, rfl⟩

/-- other objects are not touched, also when a fit fails -/
theorem fitAll_other (m : Methods D) (sample : List ℝ) (lo hi : ℝ) (rs : List ℕ) (heap : List D) (q : ℕ) (hq : q ∉ rs) :
    (fitAll m sample lo hi rs heap).1[q]? = heap[q]? := by
  induction rs generalizing heap with
  | nil => rfl
  | cons r rs ih =>
    have hne : r ≠ q := fun h => hq (by simp [h])
    have hq' : q ∉ rs := fun h => hq (by simp [h])
    rw [fitAll]
    cases hd : heap[r]? with
    | none => rfl
    | some d =>
      dsimp only
      generalize (if m.name d ∈ ["BetaScaled", "TruncatedNormal"] then m.setBounds d lo hi else d) = d1
      split
      · cases m.fit d1 sample with
        | error e => exact List.getElem?_set_ne hne
        | ok f =>
          dsimp only
          cases getPenalization sample.length (m.nparams f) with
          | error e => dsimp only; rw [List.getElem?_set_ne hne, List.getElem?_set_ne hne]
          | ok c =>
            dsimp only
            rw [ih _ hq', List.getElem?_set_ne hne, List.getElem?_set_ne hne]
      · dsimp only
        rw [ih _ hq', List.getElem?_set_ne hne]

/-- every object of a list without repetitions is fitted as if it were alone -/
theorem fitAll_each (m : Methods D) (sample : List ℝ) (lo hi : ℝ) (rs : List ℕ) (heap : List D)
    (losses : List (Option EReal)) (hnd : rs.Nodup) (h : (fitAll m sample lo hi rs heap).2 = .ok losses) :
    losses.length = rs.length ∧ ∀ i (hi' : i < rs.length), ∃ d d' loss, heap[rs[i]]? = some d ∧
      (fitAll m sample lo hi rs heap).1[rs[i]]? = some d' ∧ losses[i]? = some loss ∧
      FittedAs m sample lo hi d d' loss := by
  induction rs generalizing heap losses with
  | nil =>
    simp only [fitAll, Except.ok.injEq] at h
    subst h
    exact ⟨rfl, fun i hi' => absurd hi' (by simp)⟩
  | cons r rs ih =>
    obtain ⟨d, d', loss, rest, hd, hf, hr, hl, he⟩ := fitAll_cons m sample lo hi r rs heap losses h
    obtain ⟨hnot, hnd'⟩ := List.nodup_cons.1 hnd
    obtain ⟨h1, h2⟩ := ih _ _ hnd' hr
    subst hl
    refine ⟨by simp [h1], ?_⟩
    intro i hi'
    have hlt : r < heap.length := by
      by_contra hc
      rw [List.getElem?_eq_none (by omega)] at hd
      simp at hd
    cases i with
    | zero =>
      refine ⟨d, d', loss, hd, ?_, rfl, hf⟩
      rw [he]
      simp only [List.getElem_cons_zero]
      rw [fitAll_other m sample lo hi rs _ r hnot, List.getElem?_set_self hlt]
    | succ i =>
      have hi2 : i < rs.length := by simpa using hi'
      obtain ⟨e, e', loss', he1, he2, he3, he4⟩ := h2 i hi2
      refine ⟨e, e', loss', ?_, ?_, ?_, he4⟩
      · simp only [List.getElem_cons_succ]
        rw [← he1, List.getElem?_set_ne]
        rintro rfl
        exact hnot (List.getElem_mem _)
      · simp only [List.getElem_cons_succ]
        rw [he, he2]
      · simpa using he3

/-- only objects are passed -/
theorem gather_objects (m : Methods D) (convert : P → Except Err D) (refs : List ℕ) (heap : List D) (out : List ℕ × List D)
    (h : gather m convert (refs.map Arg.object) heap = .ok out) : out = (refs, heap) := by
  induction refs generalizing out with
  | nil => simp only [List.map_nil, gather, Except.ok.injEq] at h; exact h.symm
  | cons r rs ih =>
    rw [List.map_cons, gather] at h
    cases hd : heap[r]? with
    | none => rw [hd] at h; simp at h
    | some d =>
      rw [hd] at h
      dsimp only at h
      cases hv : valid m d with
      | error e => rw [hv] at h; simp [Except.error_bind'] at h
      | ok u =>
        rw [hv] at h
        cases hc : gather m convert (rs.map Arg.object) heap with
        | error e => rw [hc] at h; simp [Except.ok_bind', Except.error_bind'] at h
        | ok r' =>
          rw [hc] at h
          simp only [Except.ok_bind', Except.pure_eq, Except.ok.injEq] at h
          rw [← h, ih _ hc]

/-- C87: given distinct objects, every one of them ends as the fit it would get alone, all other objects stay as they are,
and the returned indexes put the objects in the order of their losses (NaN last); the warning says exactly that no object
has all its parameters afterwards; the drawn ones are among the best `plot`. -/
theorem mle_objects_partial (m : Methods D) (convert : P → Except Err D) (s : Sorter) (refs : List ℕ) (x : ℝ) (xs : List ℝ)
    (plot : ℕ) (showPlot : Bool) (heap heap' : List D) (out : Out) (hnd : refs.Nodup)
    (h : mle m convert s (refs.map Arg.object) (x :: xs) plot showPlot heap = (heap', .ok out)) :
    ∃ losses : List (Option EReal), losses.length = refs.length ∧
      (∀ i (hi : i < refs.length), ∃ d d' loss, heap[refs[i]]? = some d ∧ heap'[refs[i]]? = some d' ∧
        losses[i]? = some loss ∧ FittedAs m (x :: xs) (xs.foldl min x) (xs.foldl max x) d d' loss) ∧
      (∀ q, q ∉ refs → heap'[q]? = heap[q]?) ∧
      out.idx.Perm (List.range refs.length) ∧
      out.idx.Pairwise (fun i j => NotWorse (losses.getD i none) (losses.getD j none)) ∧
      (out.warned = true ↔ ∀ r ∈ refs, ∀ d, heap'[r]? = some d → m.frozen d = false) ∧
      (∀ r ∈ out.drawn, showPlot = true ∧ ∃ i ∈ out.idx.take plot, refs[i]? = some r) := by
  unfold mle at h
  cases hc : gather m convert (refs.map Arg.object) heap with
  | error e => rw [hc] at h; simp at h
  | ok o =>
    have := gather_objects m convert refs heap o hc
    subst this
    rw [hc] at h
    dsimp only at h
    generalize hF : fitAll m (x :: xs) (xs.foldl min x) (xs.foldl max x) refs heap = F at h
    cases hl : F.2 with
    | error e => rw [hl] at h; simp at h
    | ok losses =>
      rw [hl] at h
      simp only [Prod.mk.injEq, Except.ok.injEq] at h
      obtain ⟨hh, ho⟩ := h
      subst hh
      obtain ⟨h1, h2⟩ := fitAll_each m (x :: xs) _ _ refs heap losses hnd (by rw [hF]; exact hl)
      rw [hF] at h2
      subst ho
      refine ⟨losses, h1, h2, ?_, ?_, (s.sorted losses).imp notWorse_of_before, ?_, ?_⟩
      · intro q hq
        rw [← hF]
        exact fitAll_other m _ _ _ refs heap q hq
      · rw [← h1]; exact s.perm losses
      · simp only [List.all_eq_true]
        constructor
        · intro hw r hr d hd
          have := hw r hr
          unfold frozenAt at this
          rw [hd] at this
          simpa using this
        · intro hw r hr
          unfold frozenAt
          cases hd : F.1[r]? with
          | none => rfl
          | some d => simp [hw r hr d hd]
      · intro r hr
        simp only [List.mem_filter] at hr
        obtain ⟨hr, -⟩ := hr
        cases showPlot with
        | false => simp at hr
        | true =>
          simp only [if_true, List.mem_filterMap] at hr
          obtain ⟨i, hi, hir⟩ := hr
          refine ⟨rfl, i, ?_, hir⟩
          exact (List.take_subset_take_left _ (min_le_left _ _)) hi

/-- The objects are fitted one after another, each in the state in which the fits before it left it. -/
inductive Fits (m : Methods D) (sample : List ℝ) (lo hi : ℝ) :
    List ℕ → List D → List D → List (Option EReal) → Prop
  | nil (heap) : Fits m sample lo hi [] heap heap []
  | cons {r rs heap heap' d d' loss losses} : heap[r]? = some d → FittedAs m sample lo hi d d' loss →
      Fits m sample lo hi rs (heap.set r d') heap' losses → Fits m sample lo hi (r :: rs) heap heap' (loss :: losses)

theorem fitAll_fits (m : Methods D) (sample : List ℝ) (lo hi : ℝ) (rs : List ℕ) (heap : List D)
    (losses : List (Option EReal)) (h : (fitAll m sample lo hi rs heap).2 = .ok losses) :
    Fits m sample lo hi rs heap (fitAll m sample lo hi rs heap).1 losses := by
  induction rs generalizing heap losses with
  | nil =>
    simp only [fitAll, Except.ok.injEq] at h
    subst h
    exact .nil _
  | cons r rs ih =>
    obtain ⟨d, d', loss, rest, hd, hf, hr, hl, he⟩ := fitAll_cons m sample lo hi r rs heap losses h
    subst hl
    rw [he]
    exact .cons hd hf (ih _ _ hr)

/-- what an error leaves behind: the objects before the one that failed are fitted, it itself is prepared, or fitted if only
the correction for the sample size failed -/
def FailsAt (m : Methods D) (sample : List ℝ) (lo hi : ℝ) (pre : List ℕ) (r : ℕ) (heap heap' : List D) (e : Err) : Prop :=
  ∃ h1 losses d d1, Fits m sample lo hi pre heap h1 losses ∧ h1[r]? = some d ∧ Prepared m lo hi d d1 ∧
    m.inside d1 lo hi = true ∧
    ((m.fit d1 sample = .error e ∧ heap' = h1.set r d1) ∨
      ∃ f, m.fit d1 sample = .ok f ∧ e = .zeroDivision ∧ sample.length = m.nparams f + 1 ∧ heap' = h1.set r f)

theorem fitAll_error (m : Methods D) (sample : List ℝ) (lo hi : ℝ) (rs : List ℕ) (heap : List D) (e : Err)
    (hex : ∀ r ∈ rs, r < heap.length) (h : (fitAll m sample lo hi rs heap).2 = .error e) :
    ∃ pre r post, rs = pre ++ r :: post ∧ FailsAt m sample lo hi pre r heap (fitAll m sample lo hi rs heap).1 e := by
  induction rs generalizing heap with
  | nil => simp [fitAll] at h
  | cons r rs ih =>
    rw [fitAll] at h ⊢
    have hlt : r < heap.length := hex r (by simp)
    cases hd : heap[r]? with
    | none => rw [List.getElem?_eq_getElem hlt] at hd; simp at hd
    | some d =>
      rw [hd] at h
      dsimp only at h ⊢
      have hp := prepared_of m lo hi d
      generalize (if m.name d ∈ ["BetaScaled", "TruncatedNormal"] then m.setBounds d lo hi else d) = d1 at h hp ⊢
      have later : ∀ d' loss, FittedAs m sample lo hi d d' loss → (fitAll m sample lo hi rs (heap.set r d')).2 = .error e →
          ∃ pre q post, r :: rs = pre ++ q :: post ∧
            FailsAt m sample lo hi pre q heap (fitAll m sample lo hi rs (heap.set r d')).1 e := by
        intro d' loss hf he
        obtain ⟨pre, q, post, hq, h1, ls, x, x1, g1, g2⟩ := ih (heap.set r d') (by
          intro q hq
          rw [List.length_set]
          exact hex q (by simp [hq])) he
        exact ⟨r :: pre, q, post, by rw [hq]; rfl, h1, loss :: ls, x, x1, .cons hd hf g1, g2⟩
      by_cases hin : m.inside d1 lo hi = true
      · rw [if_pos hin] at h ⊢
        cases hf : m.fit d1 sample with
        | error e' =>
          rw [hf] at h
          simp only [Except.error.injEq] at h
          subst h
          exact ⟨[], r, rs, rfl, heap, [], d, d1, .nil _, hd, hp, hin, .inl ⟨hf, rfl⟩⟩
        | ok f =>
          rw [hf] at h
          dsimp only at h ⊢
          rw [List.set_set] at h ⊢
          cases hc : getPenalization sample.length (m.nparams f) with
          | error e' =>
            rw [hc] at h
            simp only [Except.error.injEq] at h
            subst h
            refine ⟨[], r, rs, rfl, heap, [], d, d1, .nil _, hd, hp, hin, .inr ⟨f, hf, ?_⟩⟩
            unfold getPenalization pyDiv at hc
            split at hc
            · rename_i h0
              simp only [Except.error_bind', Except.error.injEq] at hc
              refine ⟨hc.symm, ?_, rfl⟩
              have : (sample.length : ℝ) = (m.nparams f : ℝ) + 1 := by linarith
              exact_mod_cast this
            · simp [Except.ok_bind', Except.pure_eq] at hc
          | ok c =>
            rw [hc] at h
            dsimp only at h ⊢
            cases hr : (fitAll m sample lo hi rs (heap.set r f)).2 with
            | ok rest => rw [hr] at h; simp [Except.map] at h
            | error e' =>
              rw [hr] at h
              simp only [Except.map, Except.error.injEq] at h
              subst h
              exact later f _ ⟨d1, hp, .inl ⟨hin, hf, rfl⟩⟩ hr
      · rw [if_neg hin] at h ⊢
        dsimp only at h ⊢
        cases hr : (fitAll m sample lo hi rs (heap.set r d1)).2 with
        | ok rest => rw [hr] at h; simp [Except.map] at h
        | error e' =>
          rw [hr] at h
          simp only [Except.map, Except.error.injEq] at h
          subst h
          exact later d1 _ ⟨d1, hp, .inr ⟨by simpa using hin, rfl, rfl⟩⟩ hr

theorem gather_some (m : Methods D) (convert : P → Except Err D) (refs : List ℕ) (heap : List D)
    (h : ∀ r ∈ refs, ∃ d, heap[r]? = some d ∧ m.name d ≠ "Categorical") :
    gather m convert (refs.map Arg.object) heap = .ok (refs, heap) := by
  induction refs with
  | nil => rfl
  | cons r rs ih =>
    obtain ⟨d, hd, hn⟩ := h r (by simp)
    rw [List.map_cons, gather, hd]
    dsimp only
    unfold valid
    rw [if_pos hn, ih fun q hq => h q (by simp [hq])]
    rfl

/-- C87: what `mle` does to any list of objects, the same one several times or not: either the objects are fitted one after
another, each as the fits before it left it, all others stay as they are, the indexes put the list in the order of the
losses, the warning says that no object has all its parameters, and exactly the completely specified ones among the best
`plot` are drawn; or an object cannot be fitted, its error is passed on, and the objects after it are not fitted. -/
theorem mle_outcome (m : Methods D) (convert : P → Except Err D) (s : Sorter) (refs : List ℕ) (x : ℝ) (xs : List ℝ)
    (plot : ℕ) (showPlot : Bool) (heap : List D) (hobj : ∀ r ∈ refs, ∃ d, heap[r]? = some d ∧ m.name d ≠ "Categorical") :
    (∃ heap' losses out, mle m convert s (refs.map Arg.object) (x :: xs) plot showPlot heap = (heap', .ok out) ∧
      Fits m (x :: xs) (xs.foldl min x) (xs.foldl max x) refs heap heap' losses ∧
      (∀ q, q ∉ refs → heap'[q]? = heap[q]?) ∧
      out.idx.Perm (List.range refs.length) ∧
      out.idx.Pairwise (fun i j => NotWorse (losses.getD i none) (losses.getD j none)) ∧
      (out.warned = true ↔ ∀ r ∈ refs, ∀ d, heap'[r]? = some d → m.frozen d = false) ∧
      ∀ r, r ∈ out.drawn ↔ showPlot = true ∧ (∃ i ∈ out.idx.take plot, refs[i]? = some r) ∧
        ∃ d, heap'[r]? = some d ∧ m.frozen d = true) ∨
    ∃ heap' e pre r post, mle m convert s (refs.map Arg.object) (x :: xs) plot showPlot heap = (heap', .error e) ∧
      refs = pre ++ r :: post ∧ FailsAt m (x :: xs) (xs.foldl min x) (xs.foldl max x) pre r heap heap' e ∧
      ∀ q, q ∉ pre ++ [r] → heap'[q]? = heap[q]? := by
  unfold mle
  rw [gather_some m convert refs heap hobj]
  dsimp only
  have hex : ∀ r ∈ refs, r < heap.length := by
    intro r hr
    obtain ⟨d, hd, -⟩ := hobj r hr
    by_contra hc
    rw [List.getElem?_eq_none (by omega)] at hd
    simp at hd
  have hfits := fitAll_fits m (x :: xs) (xs.foldl min x) (xs.foldl max x) refs heap
  have herr := fun e => fitAll_error m (x :: xs) (xs.foldl min x) (xs.foldl max x) refs heap e hex
  have hother := fitAll_other m (x :: xs) (xs.foldl min x) (xs.foldl max x) refs heap
  generalize hF : fitAll m (x :: xs) (xs.foldl min x) (xs.foldl max x) refs heap = F at hfits herr hother ⊢
  cases hl : F.2 with
  | error e =>
    right
    obtain ⟨pre, r, post, hrs, hfail⟩ := herr e hl
    refine ⟨F.1, e, pre, r, post, rfl, hrs, hfail, ?_⟩
    intro q hq
    simp only [List.mem_append, List.mem_singleton, not_or] at hq
    obtain ⟨h1, ls, d, d1, g1, g2, -, -, g5⟩ := hfail
    have hpre : ∀ (pre : List ℕ) (heap h1 : List D) ls, Fits m (x :: xs) (xs.foldl min x) (xs.foldl max x) pre heap h1 ls →
        q ∉ pre → h1[q]? = heap[q]? := by
      intro pre heap h1 ls hfit
      induction hfit with
      | nil => exact fun _ => rfl
      | cons _ _ _ ih =>
        intro hq
        rw [List.mem_cons, not_or] at hq
        rw [ih hq.2, List.getElem?_set_ne (Ne.symm hq.1)]
    rcases g5 with ⟨-, hh⟩ | ⟨f, -, -, -, hh⟩ <;>
      rw [hh, List.getElem?_set_ne (Ne.symm hq.2), hpre _ _ _ _ g1 hq.1]
  | ok losses =>
    left
    have hlen : losses.length = refs.length := by
      have := hfits losses hl
      clear * - this
      generalize F.1 = h' at this
      induction this with
      | nil => rfl
      | cons _ _ _ ih => simp [ih]
    refine ⟨F.1, losses, _, rfl, hfits losses hl, hother, ?_, (s.sorted losses).imp notWorse_of_before, ?_, ?_⟩
    · rw [← hlen]; exact s.perm losses
    · simp only [List.all_eq_true]
      constructor
      · intro hw r hr d hd
        have := hw r hr
        unfold frozenAt at this
        rw [hd] at this
        simpa using this
      · intro hw r hr
        unfold frozenAt
        cases hd : F.1[r]? with
        | none => rfl
        | some d => simp [hw r hr d hd]
    · intro r
      have hfro : frozenAt m F.1 r = true ↔ ∃ d, F.1[r]? = some d ∧ m.frozen d = true := by
        unfold frozenAt
        cases F.1[r]? <;> simp
      rw [List.mem_filter, hfro]
      cases showPlot with
      | false => simp
      | true =>
        simp only [if_true, List.mem_filterMap, true_and]
        have htake : (s.sort losses).take (min plot refs.length) = (s.sort losses).take plot := by
          have : (s.sort losses).length = refs.length := by
            rw [(s.perm losses).length_eq, List.length_range, hlen]
          rw [← this, List.take_eq_take_iff]
          simp
        rw [htake]

/-- C87: an object that is passed twice is fitted twice, and its final state is the fit of the fit; if a fit to the same
sample does not depend on the parameters the object holds, both places get the same loss. -/
theorem mle_twice (m : Methods D) (sample : List ℝ) (lo hi : ℝ) (r : ℕ) (heap heap' : List D)
    (losses : List (Option EReal)) (h : Fits m sample lo hi [r, r] heap heap' losses)
    (hname : ∀ d, m.name d ∉ ["BetaScaled", "TruncatedNormal"])
    (hfit : ∀ d d', m.fit d sample = .ok d' → m.inside d' lo hi = true ∧ m.fit d' sample = .ok d') :
    ∃ loss, losses = [loss, loss] := by
  cases h with
  | cons h1 h2 h3 =>
    cases h3 with
    | cons g1 g2 g3 =>
      cases g3
      rename_i d d' l1 e e' l2
      have hlt : r < heap.length := by
        by_contra hc
        rw [List.getElem?_eq_none (by omega)] at h1
        simp at h1
      rw [List.getElem?_set_self hlt, Option.some.injEq] at g1
      subst g1
      obtain ⟨a1, p1, c1⟩ := h2
      obtain ⟨a2, p2, c2⟩ := g2
      have e1 := p1.2 (hname _)
      have e2 := p2.2 (hname _)
      subst e1 e2
      refine ⟨l1, ?_⟩
      rcases c1 with ⟨i1, f1, q1⟩ | ⟨i1, f1, q1⟩ <;> rcases c2 with ⟨i2, f2, q2⟩ | ⟨i2, f2, q2⟩
      · obtain ⟨-, hf⟩ := hfit _ _ f1
        rw [hf, Except.ok.injEq] at f2
        rw [q1, q2, f2]
      · rw [(hfit _ _ f1).1] at i2; simp at i2
      · rw [f1, i1] at i2; simp at i2
      · rw [q1, q2]

/-- C87: a Categorical among the objects is rejected before anything is changed. -/
theorem mle_categorical (m : Methods D) (convert : P → Except Err D) (s : Sorter) (refs : List ℕ) (sample : List ℝ)
    (plot : ℕ) (showPlot : Bool) (heap : List D) (hex : ∀ r ∈ refs, r < heap.length) (r : ℕ) (hr : r ∈ refs) (d : D)
    (hd : heap[r]? = some d) (hn : m.name d = "Categorical") :
    mle m convert s (refs.map Arg.object) sample plot showPlot heap = (heap, .error .valueError) := by
  have hc : gather m convert (refs.map Arg.object) heap = .error .valueError := by
    induction refs with
    | nil => simp at hr
    | cons q qs ih =>
      rw [List.map_cons, gather]
      have hq : q < heap.length := hex q (by simp)
      rw [List.getElem?_eq_getElem hq]
      dsimp only
      unfold valid
      by_cases hqn : m.name heap[q] = "Categorical"
      · rw [if_neg (by simpa using hqn)]
        rfl
      · rw [if_pos hqn, Except.ok_bind']
        have hr' : r ∈ qs := by
          rcases List.mem_cons.1 hr with rfl | h
          · rw [List.getElem?_eq_getElem hq, Option.some.injEq] at hd
            exact absurd (hd ▸ hn) hqn
          · exact h
        rw [ih (fun r hr => hex r (by simp [hr])) hr']
        rfl
  unfold mle
  rw [hc]

/-- C87: for objects without parameters (not frozen, whatever their bounds), of which the fit sets all, the warning is
given exactly if the sample fits into no support. -/
theorem mle_warns (m : Methods D) (convert : P → Except Err D) (s : Sorter) (refs : List ℕ) (x : ℝ) (xs : List ℝ)
    (plot : ℕ) (showPlot : Bool) (heap heap' : List D) (out : Out) (hnd : refs.Nodup)
    (hfit : ∀ d sample f, m.fit d sample = .ok f → m.frozen f = true)
    (hfresh : ∀ r ∈ refs, ∀ d, heap[r]? = some d → ∀ d1, Prepared m (xs.foldl min x) (xs.foldl max x) d d1 →
      m.frozen d1 = false)
    (h : mle m convert s (refs.map Arg.object) (x :: xs) plot showPlot heap = (heap', .ok out)) :
    out.warned = true ↔ ∀ r ∈ refs, ∀ d, heap[r]? = some d → ∀ d1, Prepared m (xs.foldl min x) (xs.foldl max x) d d1 →
      m.inside d1 (xs.foldl min x) (xs.foldl max x) = false := by
  obtain ⟨losses, -, h2, -, -, -, h6, -⟩ := mle_objects_partial m convert s refs x xs plot showPlot heap heap' out hnd h
  have uniq : ∀ d d1 d2, Prepared m (xs.foldl min x) (xs.foldl max x) d d1 →
      Prepared m (xs.foldl min x) (xs.foldl max x) d d2 → d1 = d2 := by
    intro d d1 d2 a b
    by_cases hn : m.name d ∈ ["BetaScaled", "TruncatedNormal"]
    · rw [a.1 hn, b.1 hn]
    · rw [a.2 hn, b.2 hn]
  rw [h6]
  constructor
  · intro hw r hr d hd d1 hp
    obtain ⟨i, hi, rfl⟩ := List.mem_iff_getElem.1 hr
    obtain ⟨e, e', loss, he, he', -, e1, hp1, hcase⟩ := h2 i hi
    rw [hd, Option.some.injEq] at he
    subst he
    have := uniq d d1 e1 hp hp1
    subst this
    rcases hcase with ⟨-, hf, -⟩ | ⟨hin, -, -⟩
    · have := hw _ hr e' he'
      rw [hfit _ _ _ hf] at this
      simp at this
    · exact hin
  · intro hw r hr d' hd'
    obtain ⟨i, hi, rfl⟩ := List.mem_iff_getElem.1 hr
    obtain ⟨e, e', loss, he, he', -, e1, hp1, hcase⟩ := h2 i hi
    rw [hd', Option.some.injEq] at he'
    subst he'
    rcases hcase with ⟨hin, -, -⟩ | ⟨-, rfl, -⟩
    · rw [hw _ hr e he e1 hp1] at hin
      simp at hin
    · exact hfresh _ hr e he _ hp1

/-! ## what fails -/

/-- a Uniform: `none` without parameters (support: all reals), otherwise its two bounds, which are also its support and,
after a fit, the extremes of the sample (uniform.py:49-67, 128-131) -/
noncomputable def uniformMethods : Methods (Option (ℝ × ℝ)) where
  name _ := "Uniform"
  setBounds d _ _ := d
  inside d lo hi := match d with
    | none => true
    | some (a, b) => decide (a ≤ lo) && decide (hi ≤ b)
  fit _ sample := match sample with
    | [] => .error .valueError
    | x :: xs => .ok (some (xs.foldl min x, xs.foldl max x))
  nll d sample := match d with
    | none => none
    | some (a, b) => some ((sample.length * Real.log (b - a) : ℝ) : EReal)
  nparams _ := 2
  frozen d := d.isSome

theorem uniform_prepared (d : Option (ℝ × ℝ)) (lo hi : ℝ) :
    (if uniformMethods.name d ∈ ["BetaScaled", "TruncatedNormal"] then uniformMethods.setBounds d lo hi else d) = d :=
  if_neg (by simp [uniformMethods])

/-- C87, what fails: a Uniform that has been fitted once keeps its parameters if the second sample goes beyond the first
one, and there is no warning. -/
theorem mle_refit_stale (s : Sorter) (convert : P → Except Err (Option (ℝ × ℝ))) (a b : ℝ) (x : ℝ) (xs : List ℝ)
    (hout : xs.foldl min x < a ∨ b < xs.foldl max x) :
    ∃ out, mle uniformMethods convert s [.object 0] (x :: xs) 0 true [some (a, b)] = ([some (a, b)], .ok out) ∧
      out.warned = false := by
  have hin : uniformMethods.inside (some (a, b)) (xs.foldl min x) (xs.foldl max x) = false := by
    simp only [uniformMethods, Bool.and_eq_false_iff, decide_eq_false_iff_not, not_le]
    exact hout
  have hF : fitAll uniformMethods (x :: xs) (xs.foldl min x) (xs.foldl max x) [0] [some (a, b)] =
      ([some (a, b)], .ok [some ⊤]) := by
    simp only [fitAll, List.getElem?_cons_zero]
    rw [uniform_prepared, hin, if_neg (by simp)]
    rfl
  have hc : gather uniformMethods convert [.object 0] [some (a, b)] = .ok ([0], [some (a, b)]) := by rfl
  unfold mle
  rw [hc]
  dsimp only
  rw [hF]
  exact ⟨_, rfl, rfl⟩

/-- C87, what fails: PyMC variables are converted to objects that nobody else knows, so after the call the fitted
parameters are nowhere to be read: all existing objects are as before, and only the order of the fits is returned. -/
theorem mle_pymc_lost (m : Methods D) (convert : P → Except Err D) (s : Sorter) (vs : List P) (sample : List ℝ) (plot : ℕ)
    (showPlot : Bool) (heap : List D) (q : ℕ) (hq : q < heap.length) :
    (mle m convert s (vs.map Arg.pymc) sample plot showPlot heap).1[q]? = heap[q]? := by
  have key : ∀ (vs : List P) (heap : List D) refs heap2, gather m convert (vs.map Arg.pymc) heap = .ok (refs, heap2) →
      (∀ r ∈ refs, heap.length ≤ r) ∧ ∃ l, heap2 = heap ++ l := by
    intro vs
    induction vs with
    | nil =>
      intro heap refs heap2 h
      simp only [List.map_nil, gather, Except.ok.injEq, Prod.mk.injEq] at h
      obtain ⟨rfl, rfl⟩ := h
      exact ⟨by simp, [], by simp⟩
    | cons v vs ih =>
      intro heap refs heap2 h
      rw [List.map_cons, gather] at h
      cases hv : convert v with
      | error e => rw [hv] at h; simp [Except.error_bind'] at h
      | ok d =>
        rw [hv, Except.ok_bind'] at h
        cases hval : valid m d with
        | error e => rw [hval] at h; simp [Except.error_bind'] at h
        | ok u =>
          rw [hval, Except.ok_bind'] at h
          cases hc : gather m convert (vs.map Arg.pymc) (heap ++ [d]) with
          | error e => rw [hc] at h; simp [Except.error_bind'] at h
          | ok r =>
            rw [hc] at h
            simp only [Except.ok_bind', Except.pure_eq, Except.ok.injEq, Prod.mk.injEq] at h
            obtain ⟨rfl, rfl⟩ := h
            obtain ⟨h1, l, h2⟩ := ih _ r.1 r.2 hc
            refine ⟨?_, d :: l, by rw [h2]; simp⟩
            intro q hq
            rcases List.mem_cons.1 hq with rfl | hq
            · exact le_rfl
            · have := h1 q hq
              simp at this
              omega
  unfold mle
  cases hc : gather m convert (vs.map Arg.pymc) heap with
  | error e => rfl
  | ok o =>
    obtain ⟨refs, heap2⟩ := o
    obtain ⟨h1, l, rfl⟩ := key vs heap refs heap2 hc
    have hbase : (heap ++ l)[q]? = heap[q]? := List.getElem?_append_left hq
    dsimp only
    cases sample with
    | nil => exact hbase
    | cons x xs =>
      dsimp only
      have hnot : q ∉ refs := fun h => by have := h1 q h; omega
      have := fitAll_other m (x :: xs) (xs.foldl min x) (xs.foldl max x) refs (heap ++ l) q hnot
      generalize fitAll m (x :: xs) (xs.foldl min x) (xs.foldl max x) refs (heap ++ l) = F at this ⊢
      cases F.2 <;> exact this.trans hbase

/-- a first fit of two Uniforms to a sample, the second one of which is not usable -/
example (s : Sorter) (convert : Unit → Except Err (Option (ℝ × ℝ))) :
    ∃ out, mle uniformMethods convert s [.object 0, .object 1] [3, 1, 2, 4, 5] 1 true [none, some (2, 3)] =
      ([some (1, 5), some (2, 3)], .ok out) ∧ out.warned = false := by
  have hmin : [(1 : ℝ), 2, 4, 5].foldl min 3 = 1 := by norm_num [List.foldl]
  have hmax : [(1 : ℝ), 2, 4, 5].foldl max 3 = 5 := by norm_num [List.foldl]
  have hpen : ∃ c, getPenalization ([3, 1, 2, 4, 5] : List ℝ).length 2 = .ok c := by
    unfold getPenalization pyDiv
    rw [if_neg (by norm_num)]
    exact ⟨_, rfl⟩
  obtain ⟨c, hpen⟩ := hpen
  have hF : ∃ l, fitAll uniformMethods [3, 1, 2, 4, 5] 1 5 [0, 1] [none, some (2, 3)] =
      ([some (1, 5), some (2, 3)], .ok l) := by
    refine ⟨[some (((5 : ℕ) * Real.log (5 - 1) : ℝ) + (c : EReal)), some ⊤], ?_⟩
    have hfit : uniformMethods.fit none [3, 1, 2, 4, 5] = .ok (some (1, 5)) := by
      simp only [uniformMethods, hmin, hmax]
    have hin : uniformMethods.inside (some ((2 : ℝ), (3 : ℝ))) 1 5 = false := by
      simp only [uniformMethods, Bool.and_eq_false_iff, decide_eq_false_iff_not, not_le]
      norm_num
    have h1 : fitAll uniformMethods [3, 1, 2, 4, 5] 1 5 [1] [some (1, 5), some (2, 3)] =
        ([some (1, 5), some (2, 3)], .ok [some ⊤]) := by
      simp only [fitAll, List.getElem?_cons_succ, List.getElem?_cons_zero]
      rw [uniform_prepared, hin, if_neg (by simp)]
      rfl
    rw [fitAll]
    simp only [List.getElem?_cons_zero]
    rw [uniform_prepared, if_pos (by rfl), hfit]
    have hn : uniformMethods.nparams (some ((1 : ℝ), (5 : ℝ))) = 2 := rfl
    simp only [hn, hpen, List.set_cons_zero]
    rw [h1]
    rfl
  obtain ⟨l, hF⟩ := hF
  have hc : gather uniformMethods convert [.object 0, .object 1] [none, some (2, 3)] =
      .ok ([0, 1], [none, some (2, 3)]) := by rfl
  unfold mle
  rw [hc]
  dsimp only
  rw [hmin, hmax, hF]
  exact ⟨_, rfl, rfl⟩

/-- one Uniform twice in the list: both places have the same loss -/
example (s : Sorter) (convert : Unit → Except Err (Option (ℝ × ℝ))) :
    ∃ heap' losses, Fits uniformMethods [3, 1, 2, 4, 5] 1 5 [0, 0] [none] heap' losses ∧ ∃ loss, losses = [loss, loss] := by
  have hmin : [(1 : ℝ), 2, 4, 5].foldl min 3 = 1 := by norm_num [List.foldl]
  have hmax : [(1 : ℝ), 2, 4, 5].foldl max 3 = 5 := by norm_num [List.foldl]
  rcases mle_outcome uniformMethods convert s [0, 0] 3 [1, 2, 4, 5] 1 true [none] (by
    intro r hr
    simp only [List.mem_cons, List.not_mem_nil, or_false, or_self] at hr
    subst hr
    exact ⟨none, rfl, by simp [uniformMethods]⟩) with ⟨heap', losses, out, -, h, -⟩ | ⟨heap', e, pre, r, post, -, -, h, -⟩
  · rw [hmin, hmax] at h
    refine ⟨heap', losses, h, mle_twice _ _ _ _ _ _ _ _ h (by simp [uniformMethods]) ?_⟩
    intro d d' hd
    simp only [uniformMethods, Except.ok.injEq, hmin, hmax] at hd ⊢
    subst hd
    simp
  · exfalso
    obtain ⟨h1, ls, d, d1, -, -, -, -, h | ⟨f, -, -, h, -⟩⟩ := h
    · simp [uniformMethods] at h
    · simp [uniformMethods] at h

end Verif.Props
