import Verif.Model.PpaDistance
import Verif.Props.Ppa
import Mathlib.Tactic

set_option linter.unusedSimpArgs false

/-!
# C86: octiles, distances and targets of the prior predictive assistant
-/

namespace Verif.Props
open Verif Verif.PpaDistance

/-- the quantile of a non-empty sample: between two neighbours of the sorted values -/
theorem quantile_eq (l : List ℝ) (q : ℝ) (hl : l ≠ []) (h0 : 0 ≤ q) (h1 : q ≤ 1) :
    ∃ (i : ℕ) (hi : i < (l.insertionSort (· ≤ ·)).length)
      (hj : min (i + 1) (l.length - 1) < (l.insertionSort (· ≤ ·)).length), i = ⌊((l.length : ℝ) - 1) * q⌋₊ ∧
      quantile l q = some ((l.insertionSort (· ≤ ·))[i] + (((l.length : ℝ) - 1) * q - i) *
        ((l.insertionSort (· ≤ ·))[min (i + 1) (l.length - 1)] - (l.insertionSort (· ≤ ·))[i])) := by
  have hn : 0 < l.length := List.length_pos_iff.2 hl
  have hlen : (l.insertionSort (· ≤ ·)).length = l.length := List.length_insertionSort _ _
  have hle : ((l.length : ℝ) - 1) * q ≤ ((l.length - 1 : ℕ) : ℝ) := by
    have h2 : ((l.length - 1 : ℕ) : ℝ) = (l.length : ℝ) - 1 := by
      rw [Nat.cast_sub (by omega)]; simp
    rw [h2]
    have : (0 : ℝ) ≤ (l.length : ℝ) - 1 := by
      have : (1 : ℝ) ≤ l.length := by exact_mod_cast hn
      linarith
    nlinarith
  have hi : ⌊((l.length : ℝ) - 1) * q⌋₊ ≤ l.length - 1 := by
    have := Nat.floor_le_floor hle
    rwa [Nat.floor_natCast] at this
  refine ⟨_, by rw [hlen]; omega, by rw [hlen]; omega, rfl, ?_⟩
  unfold quantile
  dsimp only
  rw [List.getElem?_eq_getElem (by rw [hlen]; omega), List.getElem?_eq_getElem (by rw [hlen]; omega)]

theorem sorted_get (l : List ℝ) (i j : ℕ) (hj : j < (l.insertionSort (· ≤ ·)).length) (h : i ≤ j) :
    (l.insertionSort (· ≤ ·))[i]'(by omega) ≤ (l.insertionSort (· ≤ ·))[j] := by
  have := List.pairwise_insertionSort (α := ℝ) (· ≤ ·) l
  rw [List.pairwise_iff_getElem] at this
  rcases Nat.lt_or_ge i j with h' | h'
  · exact this i j (by omega) hj h'
  · have : i = j := by omega
    subst this
    exact le_rfl

/-- the value lies between the two neighbours -/
theorem quantile_neighbours (l : List ℝ) (q : ℝ) (hl : l ≠ []) (h0 : 0 ≤ q) (h1 : q ≤ 1) :
    ∃ (v : ℝ) (i : ℕ) (hi : i < (l.insertionSort (· ≤ ·)).length)
      (hj : min (i + 1) (l.length - 1) < (l.insertionSort (· ≤ ·)).length), i = ⌊((l.length : ℝ) - 1) * q⌋₊ ∧
      quantile l q = some v ∧ (l.insertionSort (· ≤ ·))[i] ≤ v ∧
      v ≤ (l.insertionSort (· ≤ ·))[min (i + 1) (l.length - 1)] := by
  obtain ⟨i, hi, hj, h, e⟩ := quantile_eq l q hl h0 h1
  have hn : 0 < l.length := List.length_pos_iff.2 hl
  have hlen : (l.insertionSort (· ≤ ·)).length = l.length := List.length_insertionSort _ _
  have hh : 0 ≤ ((l.length : ℝ) - 1) * q := by
    have : (1 : ℝ) ≤ l.length := by exact_mod_cast hn
    exact mul_nonneg (by linarith) h0
  have h2 : (0 : ℝ) ≤ ((l.length : ℝ) - 1) * q - i := by
    rw [h]; have := Nat.floor_le hh; linarith
  have h3 : ((l.length : ℝ) - 1) * q - i ≤ 1 := by
    rw [h]; have := Nat.lt_floor_add_one (((l.length : ℝ) - 1) * q); linarith
  have hs := sorted_get l i (min (i + 1) (l.length - 1)) hj (by omega)
  refine ⟨_, i, hi, hj, h, e, ?_, ?_⟩
  · nlinarith
  · nlinarith

/-- C86: the quantile is monotone in the level. -/
theorem quantile_mono (l : List ℝ) (q q' : ℝ) (hl : l ≠ []) (h0 : 0 ≤ q) (h : q ≤ q') (h1 : q' ≤ 1) :
    ∃ v v', quantile l q = some v ∧ quantile l q' = some v' ∧ v ≤ v' := by
  obtain ⟨i, hi, hj, e1, e2⟩ := quantile_eq l q hl h0 (h.trans h1)
  obtain ⟨i', hi', hj', e1', e2'⟩ := quantile_eq l q' hl (h0.trans h) h1
  have hn : 0 < l.length := List.length_pos_iff.2 hl
  have hlen : (l.insertionSort (· ≤ ·)).length = l.length := List.length_insertionSort _ _
  have hm : ((l.length : ℝ) - 1) * q ≤ ((l.length : ℝ) - 1) * q' := by
    have : (1 : ℝ) ≤ l.length := by exact_mod_cast hn
    exact mul_le_mul_of_nonneg_left h (by linarith)
  have hii : i ≤ i' := by rw [e1, e1']; exact Nat.floor_le_floor hm
  rcases Nat.lt_or_ge i i' with hlt | hge
  · obtain ⟨v, k, hk, hk', ek, ev, v1, v2⟩ := quantile_neighbours l q hl h0 (h.trans h1)
    obtain ⟨w, k', hk1, hk1', ek', ew, w1, w2⟩ := quantile_neighbours l q' hl (h0.trans h) h1
    refine ⟨v, w, ev, ew, v2.trans (le_trans ?_ w1)⟩
    exact sorted_get l _ _ hk1 (by omega)
  · have : i = i' := by omega
    subst this
    refine ⟨_, _, e2, e2', ?_⟩
    have hs := sorted_get l i (min (i + 1) (l.length - 1)) hj (by omega)
    nlinarith

/-- C86: the quantile splits the sample: at least `⌊(n-1)q⌋ + 1` values are not above it, at least
`n - ⌊(n-1)q⌋ - 1` values are not below it. -/
theorem quantile_splits (l : List ℝ) (q : ℝ) (hl : l ≠ []) (h0 : 0 ≤ q) (h1 : q ≤ 1) :
    ∃ v, quantile l q = some v ∧ ⌊((l.length : ℝ) - 1) * q⌋₊ + 1 ≤ l.countP (· ≤ v) ∧
      l.length - ⌊((l.length : ℝ) - 1) * q⌋₊ - 1 ≤ l.countP (v ≤ ·) := by
  obtain ⟨v, i, hi, hj, e, ev, v1, v2⟩ := quantile_neighbours l q hl h0 h1
  have hlen : (l.insertionSort (· ≤ ·)).length = l.length := List.length_insertionSort _ _
  have hperm := List.perm_insertionSort (α := ℝ) (· ≤ ·) l
  have hs := sorted_get l
  refine ⟨v, ev, ?_, ?_⟩
  · rw [← e, ← hperm.countP_eq]
    have h2 : ((l.insertionSort (· ≤ ·)).take (i + 1)).countP (· ≤ v) = i + 1 := by
      rw [List.countP_eq_length.2, List.length_take]
      · omega
      · intro a ha
        obtain ⟨j, hj, rfl⟩ := List.mem_iff_getElem.1 ha
        rw [List.length_take] at hj
        rw [List.getElem_take]
        simp only [decide_eq_true_eq]
        exact (hs j i hi (by omega)).trans v1
    have h3 := (List.take_sublist (i + 1) (l.insertionSort (· ≤ ·))).countP_le (p := fun x => decide (x ≤ v))
    omega
  · rw [← e, ← hperm.countP_eq]
    have h2 : ((l.insertionSort (· ≤ ·)).drop (i + 1)).countP (v ≤ ·) = l.length - i - 1 := by
      rw [List.countP_eq_length.2, List.length_drop]
      · omega
      · intro a ha
        obtain ⟨j, hj, rfl⟩ := List.mem_iff_getElem.1 ha
        rw [List.length_drop] at hj
        rw [List.getElem_drop]
        simp only [decide_eq_true_eq]
        refine v2.trans (hs _ _ (by omega) (by omega))
    have h3 := (List.drop_sublist (i + 1) (l.insertionSort (· ≤ ·))).countP_le (p := fun x => decide (v ≤ x))
    omega

/-- C86: the order of the values does not matter. -/
theorem octiles_perm (l l' : List ℝ) (h : l.Perm l') : octiles l = octiles l' ∧ distance l l' = 0 := by
  have hs : l.insertionSort (· ≤ ·) = l'.insertionSort (· ≤ ·) := by
    apply List.Perm.eq_of_pairwise' (r := (· ≤ ·))
    · exact List.pairwise_insertionSort _ _
    · exact List.pairwise_insertionSort _ _
    · exact (List.perm_insertionSort _ l).trans (h.trans (List.perm_insertionSort _ l').symm)
  have he : octiles l = octiles l' := by
    unfold octiles
    have : quantile l = quantile l' := by
      funext q
      unfold quantile
      rw [hs, h.length_eq]
    rw [this]
  refine ⟨he, ?_⟩
  unfold distance
  rw [he]
  have : (List.zipWith (fun a b : Option ℝ => (a.getD 0 - b.getD 0) ^ 2) (octiles l') (octiles l')) =
      (octiles l').map fun _ => (0 : ℝ) := by
    rw [List.zipWith_self]
    apply List.map_congr_left
    intro a _
    simp
  rw [this]
  simp

/-- C86: two samples are near each other if and only if all their octiles are: the distance is at least the difference
of any two octiles of the same level, and at most `√7` times the largest of these differences. -/
theorem distance_octiles (l l' : List ℝ) (hl : l ≠ []) (hl' : l' ≠ []) :
    (∀ i : ℕ, 1 ≤ i → i ≤ 7 → ∃ v v', quantile l (i / 8) = some v ∧ quantile l' (i / 8) = some v' ∧
      |v - v'| ≤ distance l l') ∧
    ∀ d, (∀ i : ℕ, 1 ≤ i → i ≤ 7 → ∀ v v', quantile l (i / 8) = some v → quantile l' (i / 8) = some v' → |v - v'| ≤ d) →
      distance l l' ≤ Real.sqrt 7 * d := by
  have hq : ∀ (l : List ℝ), l ≠ [] → ∀ i : ℕ, i ≤ 7 → ∃ v, quantile l (i / 8) = some v := by
    intro l hl i hi
    have hi : (i : ℝ) ≤ 7 := by exact_mod_cast hi
    obtain ⟨v, -, -, -, -, h, -⟩ := quantile_neighbours l (i / 8) hl (by positivity) (by linarith)
    exact ⟨v, h⟩
  choose! f hf using hq l hl
  choose! g hg using hq l' hl'
  have e : distance l l' = Real.sqrt ((f 1 - g 1) ^ 2 + ((f 2 - g 2) ^ 2 + ((f 3 - g 3) ^ 2 + ((f 4 - g 4) ^ 2 +
      ((f 5 - g 5) ^ 2 + ((f 6 - g 6) ^ 2 + (f 7 - g 7) ^ 2)))))) := by
    unfold distance octiles
    have q1 := hf 1 (by norm_num); have q2 := hf 2 (by norm_num); have q3 := hf 3 (by norm_num)
    have q4 := hf 4 (by norm_num); have q5 := hf 5 (by norm_num); have q6 := hf 6 (by norm_num)
    have q7 := hf 7 (by norm_num)
    have r1 := hg 1 (by norm_num); have r2 := hg 2 (by norm_num); have r3 := hg 3 (by norm_num)
    have r4 := hg 4 (by norm_num); have r5 := hg 5 (by norm_num); have r6 := hg 6 (by norm_num)
    have r7 := hg 7 (by norm_num)
    norm_num at q1 q2 q3 q4 q5 q6 q7 r1 r2 r3 r4 r5 r6 r7
    norm_num [q1, q2, q3, q4, q5, q6, q7, r1, r2, r3, r4, r5, r6, r7]
  constructor
  · intro i h1 h7
    refine ⟨f i, g i, hf i h7, hg i h7, ?_⟩
    rw [e]
    apply Real.abs_le_sqrt
    have p := fun i => sq_nonneg (f i - g i)
    have := p 1; have := p 2; have := p 3; have := p 4; have := p 5; have := p 6; have := p 7
    interval_cases i <;> linarith
  · intro d hd
    have h := fun i h1 h7 => hd i h1 h7 _ _ (hf i h7) (hg i h7)
    have d0 : 0 ≤ d := (abs_nonneg _).trans (h 1 le_rfl (by norm_num))
    rw [e, ← Real.sqrt_sq d0, ← Real.sqrt_mul (by norm_num)]
    apply Real.sqrt_le_sqrt
    have p : ∀ i, 1 ≤ i → i ≤ 7 → (f i - g i) ^ 2 ≤ d ^ 2 := fun i h1 h7 => by
      rw [← sq_abs]; exact pow_le_pow_left₀ (abs_nonneg _) (h i h1 h7) 2
    have := p 1 (by norm_num) (by norm_num); have := p 2 (by norm_num) (by norm_num)
    have := p 3 (by norm_num) (by norm_num); have := p 4 (by norm_num) (by norm_num)
    have := p 5 (by norm_num) (by norm_num); have := p 6 (by norm_num) (by norm_num)
    have := p 7 (by norm_num) (by norm_num)
    linarith

/-- C86: a change of unit and origin changes the quantiles in the same way. -/
theorem quantile_affine (l : List ℝ) (c d q v : ℝ) (hc : 0 < c) (h : quantile l q = some v) :
    quantile (l.map fun x => c * x + d) q = some (c * v + d) := by
  have hs : (l.map fun x => c * x + d).insertionSort (· ≤ ·) = (l.insertionSort (· ≤ ·)).map fun x => c * x + d := by
    apply List.Perm.eq_of_pairwise' (r := (· ≤ ·))
    · exact List.pairwise_insertionSort _ _
    · rw [List.pairwise_map]
      refine (List.pairwise_insertionSort (α := ℝ) (· ≤ ·) l).imp ?_
      intro a b hab
      nlinarith
    · exact (List.perm_insertionSort _ _).trans ((List.perm_insertionSort (α := ℝ) (· ≤ ·) l).symm.map _)
  unfold quantile at h ⊢
  dsimp only at h ⊢
  rw [hs, List.length_map, List.getElem?_map, List.getElem?_map]
  generalize (l.insertionSort (· ≤ ·))[⌊((l.length : ℝ) - 1) * q⌋₊]? = a at h ⊢
  generalize (l.insertionSort (· ≤ ·))[min (⌊((l.length : ℝ) - 1) * q⌋₊ + 1) (l.length - 1)]? = b at h ⊢
  cases a with
  | none => simp at h
  | some a =>
    cases b with
    | none => simp at h
    | some b =>
      simp only [Option.some.injEq] at h
      simp only [Option.map_some, Option.some.injEq]
      rw [← h]
      ring

/-- C86: the distance is symmetric. -/
theorem distance_comm (l l' : List ℝ) : distance l l' = distance l' l := by
  unfold distance
  congr 2
  rw [List.zipWith_comm]
  congr 1
  funext a b
  ring

/-! ## the bound of the automatic selection -/

theorem sum_lt_of_all (l : List ℝ) (lo hi : ℝ) (hl : l ≠ []) (h : ∀ v ∈ l, lo < v ∧ v < hi) :
    lo * l.length < l.sum ∧ l.sum < hi * l.length := by
  induction l with
  | nil => exact absurd rfl hl
  | cons a l ih =>
    obtain ⟨h1, h2⟩ := h a (by simp)
    by_cases hl' : l = []
    · subst hl'; simp; exact ⟨h1, h2⟩
    · obtain ⟨i1, i2⟩ := ih hl' (fun v hv => h v (by simp [hv]))
      rw [List.sum_cons, List.length_cons]
      push_cast
      constructor <;> nlinarith

/-- C86: if there is a bound, it lies strictly between the 10% and the 90% quantile of the known distances. -/
theorem bound_trimmed (ds : List ℝ) (b : ℝ) (h : bound ds = .upTo b) :
    ∃ lo hi, quantile ds 0.1 = some lo ∧ quantile ds 0.9 = some hi ∧ lo < b ∧ b < hi := by
  unfold bound at h
  split at h
  · rename_i hlen
    have hne : ds ≠ [] := by rintro rfl; simp at hlen
    obtain ⟨lo, i, -, -, -, hlo, -⟩ := quantile_neighbours ds 0.1 hne (by norm_num) (by norm_num)
    obtain ⟨hi, j, -, -, -, hhi, -⟩ := quantile_neighbours ds 0.9 hne (by norm_num) (by norm_num)
    rw [hlo, hhi] at h
    simp only [Option.getD_some] at h
    split at h
    · simp at h
    · rename_i hk
      simp only [Bound.upTo.injEq] at h
      refine ⟨lo, hi, hlo, hhi, ?_⟩
      obtain ⟨h1, h2⟩ := sum_lt_of_all _ lo hi hk (fun v hv => by
        rw [List.mem_filter] at hv
        simpa using hv.2)
      have hpos : (0 : ℝ) < (List.filter (fun v => decide (lo < v ∧ v < hi)) ds).length := by
        exact_mod_cast List.length_pos_iff.2 hk
      rw [← h]
      exact ⟨(lt_div_iff₀ hpos).2 h1, (div_lt_iff₀ hpos).2 h2⟩
  · simp at h

/-- C86, what fails: if all known distances are equal, the bound is not a number. -/
theorem bound_equal_nan (d : ℝ) (n : ℕ) (h : 2 < n) : bound (List.replicate n d) = .nan := by
  have hne : List.replicate n d ≠ [] := by
    intro h'; rw [List.replicate_eq_nil_iff] at h'; omega
  have key : ∀ q, 0 ≤ q → q ≤ 1 → quantile (List.replicate n d) q = some d := by
    intro q h0 h1
    obtain ⟨v, i, hi, hj, -, e, v1, v2⟩ := quantile_neighbours (List.replicate n d) q hne h0 h1
    have hall : ∀ x ∈ (List.replicate n d).insertionSort (· ≤ ·), x = d := by
      intro x hx
      exact List.eq_of_mem_replicate ((List.perm_insertionSort (α := ℝ) (· ≤ ·) _).mem_iff.1 hx)
    rw [hall _ (List.getElem_mem _)] at v1 v2
    rw [e, le_antisymm v2 v1]
  unfold bound
  rw [List.length_replicate, if_pos h, key 0.1 (by norm_num) (by norm_num), key 0.9 (by norm_num) (by norm_num)]
  simp

/-- … also for three distances of which only two are equal -/
theorem bound_two_equal_nan : bound [1, 1, 2] = .nan := by
  have hs : [(1 : ℝ), 1, 2].insertionSort (· ≤ ·) = [1, 1, 2] := by
    norm_num [List.insertionSort, List.orderedInsert]
  have h1 : quantile [1, 1, 2] 0.1 = some 1 := by
    unfold quantile
    dsimp only
    rw [hs]
    have : ⌊(((([(1 : ℝ), 1, 2] : List ℝ).length : ℕ) : ℝ) - 1) * 0.1⌋₊ = 0 := by
      rw [Nat.floor_eq_zero]; norm_num
    rw [this]
    norm_num
  have h2 : quantile [1, 1, 2] 0.9 = some 1.8 := by
    unfold quantile
    dsimp only
    rw [hs]
    have : ⌊(((([(1 : ℝ), 1, 2] : List ℝ).length : ℕ) : ℝ) - 1) * 0.9⌋₊ = 1 := by
      rw [Nat.floor_eq_iff (by norm_num)]; norm_num
    rw [this]
    norm_num
  unfold bound
  rw [if_pos (by norm_num), h1, h2]
  norm_num

/-! ## the target -/

open Verif.Ppa

theorem nearest_walk (draws : ℕ) (t : List ℕ) (hnd : t.Nodup) (pre rest : List ℕ)
    (ht : t = pre ++ rest) (new : Option ℕ)
    (hnew : (new = none ∧ pre = []) ∨ ∃ x, new = some x ∧ x ∈ pre) :
    nearest draws pre ∅ t new = rest.headD draws := by
  -- walking through `pre`, every entry is already in the list
  have walk : ∀ (a b : List ℕ) (x : ℕ), pre = a ++ b → x ∈ pre →
      nearest draws pre ∅ (b ++ rest) (some x) = rest.headD draws := by
    intro a b
    induction b generalizing a with
    | nil =>
      intro x hx hmem
      cases rest with
      | nil => simp [nearest, hmem]
      | cons y ys =>
        simp only [List.nil_append, nearest]
        rw [if_pos (.inl hmem)]
        have hy : y ∉ pre := by
          rw [ht] at hnd
          exact fun h => (List.disjoint_of_nodup_append hnd) h (by simp)
        cases ys with
        | nil => simp [nearest, hy]
        | cons z zs => simp [nearest, hy]
    | cons y b ih =>
      intro x hx hmem
      simp only [List.cons_append, nearest]
      rw [if_pos (.inl hmem)]
      exact ih (a ++ [y]) y (by simp [hx]) (by rw [hx]; simp)
  rcases hnew with ⟨rfl, rfl⟩ | ⟨x, rfl, hx⟩
  · rw [ht]
    cases rest with
    | nil => simp [nearest]
    | cons y ys =>
      simp only [List.nil_append, nearest]
      cases ys <;> simp [nearest]
  · rw [ht]
    exact walk [] pre x rfl hx

theorem targetRounds_eq (env : Env) (k : ℕ) (pre rest : List ℕ) (ht : (env.order none).tail = pre ++ rest)
    (new : Option ℕ) (hnew : (new = none ∧ pre = []) ∨ (∃ x, new = some x ∧ x ∈ pre) ∨ (new = some env.draws ∧ rest = [])) :
    targetRounds env k new pre = pre ++ rest.take k := by
  have hnd : (env.order none).Nodup := (env.order_perm none).nodup_iff.2 List.nodup_range
  have hnd' : (env.order none).tail.Nodup := hnd.sublist (List.tail_sublist _)
  have hlt : ∀ x ∈ (env.order none).tail, x ≠ env.draws := by
    intro x hx
    have := List.mem_range.1 ((env.order_perm none).mem_iff.1 (List.mem_of_mem_tail hx))
    omega
  induction k generalizing pre rest new with
  | zero => simp [targetRounds]
  | succ k ih =>
    have hval : nearest env.draws pre ∅ (env.order none).tail new = rest.headD env.draws := by
      rcases hnew with h | h | ⟨rfl, rfl⟩
      · exact nearest_walk _ _ hnd' pre rest ht new (.inl h)
      · exact nearest_walk _ _ hnd' pre rest ht new (.inr h)
      · have hp : env.draws ∉ pre := by
          intro h
          exact hlt env.draws (by rw [ht]; simp [h]) rfl
        cases (env.order none).tail <;> simp [nearest, hp]
    unfold targetRounds
    dsimp only
    rw [hval]
    cases rest with
    | nil =>
      simp only [List.headD_nil, ne_eq, not_true_eq_false, if_false]
      rw [ih pre [] ht (some env.draws) (.inr (.inr ⟨rfl, rfl⟩))]
      simp
    | cons y ys =>
      have hy : y ≠ env.draws := hlt y (by rw [ht]; simp)
      simp only [List.headD_cons, ne_eq, hy, not_false_eq_true, if_true]
      rw [ih (pre ++ [y]) ys (by rw [ht]; simp) (some y) (.inr (.inl ⟨y, rfl, by simp⟩))]
      simp

/-- C86: with a target, the first display shows the second to tenth nearest samples, … -/
theorem target_display (env : Env) (first : List ℕ → ℕ) (hd : 1 < env.draws) (h : env.excluded.card ≠ env.draws) :
    (start env first true).2 = .ok ((env.order none).tail.take 9) := by
  unfold start initSubsamples
  dsimp only
  rw [if_neg (by simpa using h)]
  simp only [if_true]
  rw [targetRounds_eq env 9 [] _ rfl none (.inl ⟨rfl, rfl⟩)]
  have hlen : (env.order none).length = env.draws := by
    rw [(env.order_perm none).length_eq, List.length_range]
  have hne : (env.order none).tail.take 9 ≠ [] := by
    rw [← List.length_pos_iff, List.length_take, List.length_tail]
    omega
  simp only [List.nil_append]
  exact if_neg hne

/-- … so what fails: the sample nearest to the target is never among them. -/
theorem nearest_not_displayed (env : Env) (first : List ℕ → ℕ) (hd : 1 < env.draws) (h : env.excluded.card ≠ env.draws) (best : ℕ)
    (rest : List ℕ) (hb : env.order none = best :: rest) :
    ∃ l, (start env first true).2 = .ok l ∧ best ∉ l := by
  refine ⟨_, target_display env first hd h, ?_⟩
  have hnd : (env.order none).Nodup := (env.order_perm none).nodup_iff.2 List.nodup_range
  rw [hb] at hnd ⊢
  intro hm
  exact (List.nodup_cons.1 hnd).1 (List.mem_of_mem_take hm)

/-! ## returning the prior -/

/-- C86: at least five samples are needed; then exactly the selected ones are fitted. -/
theorem return_prior {F : Type} (fit : List ℕ → Except Err F) (selected : List ℕ) :
    (selected.length < 5 → returnPrior fit selected = .ok none) ∧
    (5 ≤ selected.length → ∀ f, fit selected = .ok f → returnPrior fit selected = .ok (some f)) := by
  unfold returnPrior
  constructor
  · intro h; rw [if_neg (by omega)]
  · intro h f hf; rw [if_pos (by omega), hf]; rfl

/-- the median of four values -/
example : quantile [4, 1, 3, 2] 0.5 = some 2.5 := by
  have hs : [(4 : ℝ), 1, 3, 2].insertionSort (· ≤ ·) = [1, 2, 3, 4] := by
    norm_num [List.insertionSort, List.orderedInsert]
  unfold quantile
  dsimp only
  rw [hs]
  have : ⌊(((([(4 : ℝ), 1, 3, 2] : List ℝ).length : ℕ) : ℝ) - 1) * 0.5⌋₊ = 1 := by
    rw [Nat.floor_eq_iff (by norm_num)]; norm_num
  rw [this]
  norm_num

/-- three different distances: the middle one is the bound -/
example : bound [3, 1, 2] = .upTo 2 := by
  have hs : [(3 : ℝ), 1, 2].insertionSort (· ≤ ·) = [1, 2, 3] := by
    norm_num [List.insertionSort, List.orderedInsert]
  have h1 : quantile [3, 1, 2] 0.1 = some 1.2 := by
    unfold quantile
    dsimp only
    rw [hs]
    have : ⌊(((([(3 : ℝ), 1, 2] : List ℝ).length : ℕ) : ℝ) - 1) * 0.1⌋₊ = 0 := by
      rw [Nat.floor_eq_zero]; norm_num
    rw [this]
    norm_num
  have h2 : quantile [3, 1, 2] 0.9 = some 2.8 := by
    unfold quantile
    dsimp only
    rw [hs]
    have : ⌊(((([(3 : ℝ), 1, 2] : List ℝ).length : ℕ) : ℝ) - 1) * 0.9⌋₊ = 1 := by
      rw [Nat.floor_eq_iff (by norm_num)]; norm_num
    rw [this]
    norm_num
  unfold bound
  rw [if_pos (by norm_num), h1, h2]
  norm_num

/-- twelve samples: 1 to 9 are shown, 0 is the nearest one -/
example : (start (plain 12) headOf true).2 = .ok [1, 2, 3, 4, 5, 6, 7, 8, 9] := by
  rw [target_display _ _ (show 1 < 12 by norm_num) (by rw [plain_excluded]; simp [plain])]
  rfl

end Verif.Props
