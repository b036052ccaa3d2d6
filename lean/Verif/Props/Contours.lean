import Verif.Model.Contours
import Mathlib.Tactic.IntervalCases

set_option linter.unusedSimpArgs false

/-!
# C63: contour levels of the multivariate plots
-/

namespace Verif.Props
open Verif Verif.Contours

/-- share of the total density in the cells selected by `S` -/
noncomputable def share (d : List ℝ) (S : ℝ → Prop) [DecidablePred S] : ℝ := (d.filter fun x => S x).sum / d.sum

private theorem sorted_facts (d : List ℝ) :
    (sortedDensity d).Perm d ∧ (sortedDensity d).Pairwise (· ≥ ·) :=
  ⟨List.perm_insertionSort _ d, List.pairwise_insertionSort _ d⟩

private theorem share_sorted (d : List ℝ) (S : ℝ → Prop) [DecidablePred S] :
    share d S = share (sortedDensity d) S := by
  unfold share
  have h := (sorted_facts d).1
  rw [h.sum_eq, (h.filter _).sum_eq]

private theorem sum_take_le (s : List ℝ) (h0 : ∀ x ∈ s, 0 ≤ x) (S : ℝ → Prop) [DecidablePred S] :
    (s.filter fun x => S x).sum ≤ s.sum := by
  induction s with
  | nil => simp
  | cons a s ih =>
    have := ih fun x hx => h0 x (List.mem_cons_of_mem _ hx)
    have ha := h0 a List.mem_cons_self
    by_cases h : S a
    · rw [List.filter_cons_of_pos (by simpa using h)]; simp only [List.sum_cons]; linarith
    · rw [List.filter_cons_of_neg (by simpa using h)]; simp only [List.sum_cons]; linarith

/-- cells strictly above entry `i` are among the first `i+1` -/
private theorem above_le (s : List ℝ) (h0 : ∀ x ∈ s, 0 ≤ x) (hs : s.Pairwise (· ≥ ·)) (i : ℕ) (hi : i < s.length) :
    (s.filter fun x => s[i] < x).sum ≤ (s.take (i + 1)).sum := by
  have hdrop : (s.drop (i + 1)).filter (fun x => s[i] < x) = [] := by
    rw [List.filter_eq_nil_iff]
    intro x hx
    obtain ⟨j, hj, rfl⟩ := List.mem_iff_getElem.1 hx
    rw [List.getElem_drop]
    have := List.pairwise_iff_getElem.1 hs i (i + 1 + j) hi (by rw [List.length_drop] at hj; omega) (by omega)
    simpa using this
  have e : s.filter (fun x => s[i] < x) = (s.take (i + 1)).filter (fun x => s[i] < x) := by
    rw [← List.append_nil ((s.take (i + 1)).filter _), ← hdrop, ← List.filter_append, List.take_append_drop]
  rw [e]
  exact sum_take_le _ (fun x hx => h0 x (List.mem_of_mem_take hx)) _

/-- the first `i+1` cells are at least entry `i` -/
private theorem le_above (s : List ℝ) (h0 : ∀ x ∈ s, 0 ≤ x) (hs : s.Pairwise (· ≥ ·)) (i : ℕ) (hi : i < s.length) :
    (s.take (i + 1)).sum ≤ (s.filter fun x => s[i] ≤ x).sum := by
  have htake : (s.take (i + 1)).filter (fun x => s[i] ≤ x) = s.take (i + 1) := by
    rw [List.filter_eq_self]
    intro x hx
    obtain ⟨j, hj, rfl⟩ := List.mem_iff_getElem.1 hx
    rw [List.getElem_take]
    rw [List.length_take] at hj
    rcases Nat.lt_or_ge j i with h | h
    · simpa using List.pairwise_iff_getElem.1 hs j i (by omega) hi h
    · have : j = i := by omega
      subst this; simp
  have e : s.filter (fun x => s[i] ≤ x) = s.take (i + 1) ++ (s.drop (i + 1)).filter (fun x => s[i] ≤ x) := by
    conv_rhs => rw [← htake]
    rw [← List.filter_append, List.take_append_drop]
  rw [e, List.sum_append]
  have : 0 ≤ ((s.drop (i + 1)).filter fun x => s[i] ≤ x).sum :=
    List.sum_nonneg fun x hx => h0 x (List.mem_of_mem_drop (List.mem_of_mem_filter hx))
  linarith

private theorem kept_iff (s : List ℝ) (h : 0 < s.sum) (p : ℝ) (i : ℕ) :
    kept s p i ↔ (s.take (i + 1)).sum / s.sum ≤ p := by
  unfold kept csd
  rw [if_neg h.ne']

/-- what the level is, by position -/
private theorem level_spec (s : List ℝ) (hne : s ≠ []) (p : ℝ) :
    (∃ i, ∃ hi : i < s.length, level s p = s[i] ∧ kept s p i ∧ ∀ j, j < s.length → kept s p j → j ≤ i) ∨
    ((∀ j, j < s.length → ¬ kept s p j) ∧ ∃ h0 : 0 < s.length, level s p = s[0]) := by
  classical
  cases h : ((List.range s.length).filter fun i => kept s p i).getLast? with
  | some i =>
    left
    have hmem := List.mem_of_getLast? h
    rw [List.mem_filter, List.mem_range] at hmem
    refine ⟨i, hmem.1, ?_, by simpa using hmem.2, ?_⟩
    · unfold level
      simp only [h]
      simp [List.getD, List.getElem?_eq_getElem hmem.1]
    · intro j hj hk
      obtain ⟨l, hl⟩ := List.getLast?_eq_some_iff.1 h
      have hj' : j ∈ (List.range s.length).filter fun i => kept s p i := by
        rw [List.mem_filter, List.mem_range]; exact ⟨hj, by simpa using hk⟩
      have hp : ((List.range s.length).filter fun i => kept s p i).Pairwise (· < ·) :=
        List.Pairwise.filter _ List.pairwise_lt_range
      rw [hl] at hj' hp
      rcases List.mem_append.1 hj' with h1 | h1
      · exact ((List.pairwise_append.1 hp).2.2 j h1 i (by simp)).le
      · simp only [List.mem_singleton] at h1; omega
  | none =>
    right
    rw [List.getLast?_eq_none_iff, List.filter_eq_nil_iff] at h
    refine ⟨fun j hj hk => h j (List.mem_range.2 hj) (by simpa using hk), List.length_pos_iff.2 hne, ?_⟩
    have h' : ((List.range s.length).filter fun i => kept s p i).getLast? = none := by
      rw [List.getLast?_eq_none_iff, List.filter_eq_nil_iff]; exact h
    unfold level
    simp only [h']
    obtain ⟨a, l, rfl⟩ := List.exists_cons_of_ne_nil hne
    rfl

/-- C63: for non-negative densities with a positive total, one level is returned per requested probability, in
increasing order; each level is one of the density values. -/
theorem contours_shape (d ps : List ℝ) (hne : d ≠ []) :
    ∃ ls, hdiContours d ps = .ok ls ∧ ls.length = ps.length ∧ ls.Pairwise (· ≤ ·) ∧ ∀ l ∈ ls, l ∈ d := by
  obtain ⟨hperm, -⟩ := sorted_facts d
  have hne' : sortedDensity d ≠ [] := fun h => hne (by rw [h] at hperm; exact hperm.nil_eq.symm)
  refine ⟨_, by unfold hdiContours; rw [if_neg hne], ?_, List.pairwise_insertionSort _ _, ?_⟩
  · rw [List.length_insertionSort, List.length_map]
  · intro l hl
    rw [(List.perm_insertionSort _ _).mem_iff] at hl
    obtain ⟨p, -, rfl⟩ := List.mem_map.1 hl
    rw [← hperm.mem_iff]
    rcases level_spec _ hne' p with ⟨i, hi, h, -⟩ | ⟨-, h0, h⟩ <;> rw [h] <;> exact List.getElem_mem _

/-- C63: the returned levels are exactly those of the requested probabilities: for a probability `p ≥ 0`, the cells
above its level hold at most `p` of the total density, and for any lower density value the cells reaching that
value hold more than `p`. -/
theorem contours_levels (d ps : List ℝ) (hne : d ≠ []) (h0 : ∀ x ∈ d, 0 ≤ x) (hpos : 0 < d.sum)
    (hps : ∀ p ∈ ps, 0 ≤ p) :
    ∃ ls : List ℝ, hdiContours d ps = .ok (ls.insertionSort (· ≤ ·)) ∧
      List.Forall₂ (fun p l => share d (fun x => l < x) ≤ p ∧
        ∀ v ∈ d, v < l → p < share d (fun x => v ≤ x)) ps ls := by
  obtain ⟨hperm, hsort⟩ := sorted_facts d
  refine ⟨ps.map (level (sortedDensity d)), by unfold hdiContours; rw [if_neg hne], ?_⟩
  have key : ∀ p, 0 ≤ p → (share d (fun x => level (sortedDensity d) p < x) ≤ p ∧
        ∀ v ∈ d, v < level (sortedDensity d) p → p < share d (fun x => v ≤ x)) := by
    intro p hp
    simp only [share_sorted d]
    have hs0 : ∀ x ∈ sortedDensity d, 0 ≤ x := fun x hx => h0 x (hperm.mem_iff.1 hx)
    have hspos : 0 < (sortedDensity d).sum := by rw [hperm.sum_eq]; exact hpos
    have hne' : sortedDensity d ≠ [] := fun h => hne (by rw [h] at hperm; exact hperm.nil_eq.symm)
    simp only [← hperm.mem_iff (a := _)]
    have hmem : ∀ v, v ∈ d ↔ v ∈ sortedDensity d := fun v => hperm.mem_iff.symm
    generalize hS : sortedDensity d = s at *
    have low : ∀ j, ∀ hj : j < s.length, ¬ kept s p j → p < share s (fun x => s[j] ≤ x) := by
      intro j hj hk
      rw [kept_iff s hspos] at hk
      push Not at hk
      refine lt_of_lt_of_le hk ?_
      unfold share
      exact div_le_div_of_nonneg_right (le_above s hs0 hsort j hj) hspos.le
    rcases level_spec s hne' p with ⟨i, hi, hl, hk, hlast⟩ | ⟨hnone, hi, hl⟩
    · rw [hl]
      constructor
      · rw [kept_iff s hspos] at hk
        exact le_trans (div_le_div_of_nonneg_right (above_le s hs0 hsort i hi) hspos.le) hk
      · intro v hv hlt
        obtain ⟨j, hj, rfl⟩ := List.mem_iff_getElem.1 hv
        apply low j hj
        intro hkj
        have hji := hlast j hj hkj
        rcases Nat.lt_or_ge j i with h | h
        · exact absurd (List.pairwise_iff_getElem.1 hsort j i hj hi h) (not_le.2 hlt)
        · have : j = i := by omega
          subst this; exact lt_irrefl _ hlt
    · rw [hl]
      constructor
      · have : s.filter (fun x => s[0] < x) = [] := by
          rw [List.filter_eq_nil_iff]
          intro x hx
          obtain ⟨j, hj, rfl⟩ := List.mem_iff_getElem.1 hx
          rcases Nat.eq_zero_or_pos j with h | h
          · subst h; simp
          · simpa using List.pairwise_iff_getElem.1 hsort 0 j hi hj h
        unfold share
        rw [this]; simpa using hp
      · intro v hv hlt
        obtain ⟨j, hj, rfl⟩ := List.mem_iff_getElem.1 hv
        exact low j hj (hnone j hj)
  clear hsort hperm
  induction ps with
  | nil => exact List.Forall₂.nil
  | cons p ps ih =>
    exact List.Forall₂.cons (key p (hps p List.mem_cons_self)) (ih fun q hq => hps q (List.mem_cons_of_mem _ hq))

/-- C63 (partial): if the densities are pairwise different and some region fits, the level is the smallest density value
whose region (cells reaching the value) holds at most `p`.  Missing: repeated density values, and probabilities
smaller than the share of the highest cell; see the negations. -/
theorem contours_exact_partial (d : List ℝ) (hd : d.Nodup) (h0 : ∀ x ∈ d, 0 ≤ x) (hpos : 0 < d.sum) (p : ℝ)
    (hfit : ∃ v ∈ d, share d (fun x => v ≤ x) ≤ p) :
    ∃ l, hdiContours d [p] = .ok [l] ∧ l ∈ d ∧ share d (fun x => l ≤ x) ≤ p ∧
      ∀ v ∈ d, share d (fun x => v ≤ x) ≤ p → l ≤ v := by
  obtain ⟨hperm, hsort⟩ := sorted_facts d
  have hne : d ≠ [] := by rintro rfl; simp at hfit
  have hp : 0 ≤ p := by
    obtain ⟨v, -, hv⟩ := hfit
    refine le_trans ?_ hv
    unfold share
    exact div_nonneg (List.sum_nonneg fun x hx => h0 x (List.mem_of_mem_filter hx)) hpos.le
  obtain ⟨ls, hls, hall⟩ := contours_levels d [p] hne h0 hpos (by simpa using hp)
  have hle : hdiContours d [p] = .ok [level (sortedDensity d) p] := by
    unfold hdiContours; rw [if_neg hne]; simp
  have hs0 : ∀ x ∈ sortedDensity d, 0 ≤ x := fun x hx => h0 x (hperm.mem_iff.1 hx)
  have hspos : 0 < (sortedDensity d).sum := by rw [hperm.sum_eq]; exact hpos
  have hne' : sortedDensity d ≠ [] := fun h => hne (by rw [h] at hperm; exact hperm.nil_eq.symm)
  have hnd : (sortedDensity d).Nodup := hperm.nodup_iff.2 hd
  have hmem : ∀ v, v ∈ d ↔ v ∈ sortedDensity d := fun v => hperm.mem_iff.symm
  -- share of a region by position
  have hreg : ∀ i, ∀ hi : i < (sortedDensity d).length,
      share d (fun x => (sortedDensity d)[i] ≤ x) = ((sortedDensity d).take (i + 1)).sum / (sortedDensity d).sum := by
    intro i hi
    rw [share_sorted]
    unfold share
    congr 2
    have htake : ((sortedDensity d).take (i + 1)).filter (fun x => (sortedDensity d)[i] ≤ x) =
        (sortedDensity d).take (i + 1) := by
      rw [List.filter_eq_self]
      intro x hx
      obtain ⟨j, hj, rfl⟩ := List.mem_iff_getElem.1 hx
      rw [List.getElem_take]
      rw [List.length_take] at hj
      rcases Nat.lt_or_ge j i with h | h
      · simpa using List.pairwise_iff_getElem.1 hsort j i (by omega) hi h
      · have : j = i := by omega
        subst this; simp
    have hdrop : ((sortedDensity d).drop (i + 1)).filter (fun x => (sortedDensity d)[i] ≤ x) = [] := by
      rw [List.filter_eq_nil_iff]
      intro x hx
      obtain ⟨j, hj, rfl⟩ := List.mem_iff_getElem.1 hx
      rw [List.getElem_drop]
      rw [List.length_drop] at hj
      have h1 := List.pairwise_iff_getElem.1 hsort i (i + 1 + j) hi (by omega) (by omega)
      have h2 : (sortedDensity d)[i] ≠ (sortedDensity d)[i + 1 + j] := by
        intro h
        have := (hnd.getElem_inj_iff).1 h
        omega
      simpa using lt_of_le_of_ne h1 (Ne.symm h2)
    conv_rhs => rw [← htake, ← List.append_nil (List.filter _ _), ← hdrop, ← List.filter_append]
    rw [List.take_append_drop]
  refine ⟨_, hle, ?_⟩
  rcases level_spec _ hne' p with ⟨i, hi, hl, hk, hlast⟩ | ⟨hnone, hi, hl⟩
  · rw [hl]
    rw [kept_iff _ hspos, ← hreg i hi] at hk
    refine ⟨(hmem _).2 (List.getElem_mem hi), hk, ?_⟩
    intro v hv hsv
    obtain ⟨j, hj, rfl⟩ := List.mem_iff_getElem.1 ((hmem v).1 hv)
    rw [hreg j hj, ← kept_iff _ hspos] at hsv
    have := hlast j hj hsv
    rcases Nat.lt_or_ge j i with h | h
    · exact List.pairwise_iff_getElem.1 hsort j i hj hi h
    · have : j = i := by omega
      subst this; exact le_rfl
  · exfalso
    obtain ⟨v, hv, hsv⟩ := hfit
    obtain ⟨j, hj, rfl⟩ := List.mem_iff_getElem.1 ((hmem v).1 hv)
    rw [hreg j hj, ← kept_iff _ hspos] at hsv
    exact hnone j hj hsv

/-- the hypotheses are met by three cells -/
example : ([5, 3, 2] : List ℝ).Nodup ∧ (∀ x ∈ ([5, 3, 2] : List ℝ), 0 ≤ x) ∧ 0 < ([5, 3, 2] : List ℝ).sum ∧
    ∃ v ∈ ([5, 3, 2] : List ℝ), share [5, 3, 2] (fun x => v ≤ x) ≤ 0.5 := by
  refine ⟨by norm_num, by norm_num, by norm_num, 5, by simp, ?_⟩
  unfold share
  norm_num [List.filter]

private theorem level_fallback (s : List ℝ) (hs : 0 < s.sum) (h0 : ∀ x ∈ s, 0 ≤ x) (hne : s ≠ []) (p : ℝ)
    (h : p < s.headD 0 / s.sum) : level s p = s.headD 0 := by
  obtain ⟨a, l, rfl⟩ := List.exists_cons_of_ne_nil hne
  rcases level_spec (a :: l) (by simp) p with ⟨i, hi, -, hk, -⟩ | ⟨-, hi, hl⟩
  · exfalso
    rw [kept_iff _ hs] at hk
    have h1 : a ≤ ((a :: l).take (i + 1)).sum := by
      rw [List.take_succ_cons, List.sum_cons]
      have : 0 ≤ (l.take i).sum := List.sum_nonneg fun x hx =>
        h0 x (List.mem_cons_of_mem _ (List.mem_of_mem_take hx))
      linarith
    have h2 := div_le_div_of_nonneg_right h1 hs.le
    simp only [List.headD_cons] at h
    linarith
  · rw [hl]; rfl

/-- C63, what fails: a probability smaller than the share of the highest cell.  With cells 3 and 1 the region returned for
0.5 holds 0.75. -/
theorem contours_too_large : ∃ l, hdiContours [3, 1] [0.5] = .ok [l] ∧ share [3, 1] (fun x => l ≤ x) = 0.75 := by
  refine ⟨3, ?_, by unfold share; norm_num [List.filter]⟩
  have hs : sortedDensity [3, 1] = [3, 1] := by
    unfold sortedDensity; norm_num [List.insertionSort, List.orderedInsert]
  unfold hdiContours
  rw [if_neg (by simp), hs, List.map_cons, List.map_nil,
    level_fallback [3, 1] (by norm_num) (by norm_num) (by simp) _ (by norm_num)]
  norm_num

/-- C63, what fails: equal cells.  For a uniform density every requested probability gets the same level, above which
there is nothing and at which there is everything. -/
theorem contours_uniform (n : ℕ) (c : ℝ) (hc : 0 < c) (ps : List ℝ) :
    hdiContours (List.replicate (n + 1) c) ps = .ok (List.replicate ps.length c) ∧
    share (List.replicate (n + 1) c) (fun x => c < x) = 0 ∧ share (List.replicate (n + 1) c) (fun x => c ≤ x) = 1 := by
  refine ⟨?_, ?_, ?_⟩
  · obtain ⟨ls, h1, h2, -, h3⟩ := contours_shape (List.replicate (n + 1) c) ps (by simp)
    rw [h1]
    congr 1
    rw [List.eq_replicate_iff]
    exact ⟨h2, fun l hl => List.eq_of_mem_replicate (h3 l hl)⟩
  · unfold share
    simp
  · unfold share
    have : (List.replicate (n + 1) c).filter (fun x => c ≤ x) = List.replicate (n + 1) c := by
      rw [List.filter_eq_self]; intro x hx; simp [List.eq_of_mem_replicate hx]
    rw [this, div_self]
    simp only [List.sum_replicate, nsmul_eq_mul]
    positivity

/-- C63, what fails: the simplex plot asks for contour lines at levels that are not strictly increasing, which the
plotting library refuses.  One cell holding 60 % of the total gets both the 0.1 and the 0.5 level. -/
theorem simplex_levels_repeat : ∃ ls, simplexPlot [6, 3, 1] = .ok (.lines ls) ∧ ¬ ls.Pairwise (· < ·) := by
  have hs : sortedDensity [6, 3, 1] = [6, 3, 1] := by
    unfold sortedDensity; norm_num [List.insertionSort, List.orderedInsert]
  have l1 : level [6, 3, 1] 0.1 = 6 :=
    level_fallback [6, 3, 1] (by norm_num) (by norm_num) (by simp) _ (by norm_num)
  have l2 : level [6, 3, 1] 0.5 = 6 :=
    level_fallback [6, 3, 1] (by norm_num) (by norm_num) (by simp) _ (by norm_num)
  have l3 : level [6, 3, 1] 0.94 = 3 := by
    have hk : ∀ j, j < 3 → (kept [6, 3, 1] 0.94 j ↔ j ≤ 1) := by
      intro j hj
      rw [kept_iff _ (by norm_num)]
      interval_cases j <;> norm_num
    rcases level_spec [6, 3, 1] (by simp) 0.94 with ⟨i, hi, hl, hk1, hk2⟩ | ⟨hnone, -, -⟩
    · have h3 : i < 3 := hi
      have h1 := (hk i h3).1 hk1
      have h2 := hk2 1 (by simp) ((hk 1 (by norm_num)).2 le_rfl)
      have : i = 1 := by omega
      subst this
      exact hl
    · exact absurd ((hk 0 (by norm_num)).2 (by norm_num)) (hnone 0 (by simp))
  refine ⟨[3, 6, 6], ?_, by norm_num⟩
  unfold simplexPlot hdiContours
  rw [if_neg (by simp), hs]
  simp only [List.map_cons, List.map_nil, l1, l2, l3, Except.ok_bind', Except.pure_eq]
  norm_num [List.insertionSort, List.orderedInsert]

end Verif.Props
