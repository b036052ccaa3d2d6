import Verif.Model.Optim
import Verif.Spec.Optim
import Mathlib.Algebra.Order.Floor.Ring
import Mathlib.Algebra.BigOperators.Group.List.Basic
import Mathlib.Algebra.Order.BigOperators.Group.List

/-!
# C32, C33: combining samples and combining roulette answers
-/

namespace Verif.Props
open Verif Verif.Param Verif.Optim Verif.Spec

/-! ## C32 -/

/-- C32: the number of draws from each expert. -/
theorem combine_sizes (n S : ℕ) (ws : List ℝ) (h0 : ∀ w ∈ ws, 0 ≤ w) (hs : 0 < ws.sum) :
    combineSizes n (some ws) S = .ok ((ws.map fun w => ⌊(S : ℝ) * (w / ws.sum)⌋).take n) := by
  have h1 : ws.any (· < 0) = false := by
    rw [List.any_eq_false]
    intro w hw
    simpa using h0 w hw
  simp only [combineSizes, startWeights, Except.ok_bind', h1, Bool.false_eq_true, if_false, hs.ne',
    Except.pure_eq, List.map_map]
  rfl

theorem floor_sum_bounds (ws : List ℝ) (c : ℝ) (hne : ws ≠ []) :
    ((ws.map fun w => ⌊c * w⌋).sum : ℝ) ≤ c * ws.sum ∧
    c * ws.sum - ws.length < ((ws.map fun w => ⌊c * w⌋).sum : ℝ) := by
  have main : ∀ ws : List ℝ, ((ws.map fun w => ⌊c * w⌋).sum : ℝ) ≤ c * ws.sum ∧
      (c * ws.sum - ws.length ≤ ((ws.map fun w => ⌊c * w⌋).sum : ℝ) ∧
        (ws ≠ [] → c * ws.sum - ws.length < ((ws.map fun w => ⌊c * w⌋).sum : ℝ))) := by
    intro ws
    induction ws with
    | nil => simp
    | cons a ws ih =>
      obtain ⟨h1, h2, -⟩ := ih
      have h3 := Int.floor_le (c * a)
      have h4 := Int.lt_floor_add_one (c * a)
      simp only [List.map_cons, List.sum_cons, Int.cast_add, List.length_cons, Nat.cast_add, Nat.cast_one]
      refine ⟨by linarith, by linarith, fun _ => by linarith⟩
  exact ⟨(main ws).1, (main ws).2.2 hne⟩

/-- C32: with one weight per expert the total number of draws is at most `sample_size` and more than
`sample_size` minus the number of experts. -/
theorem combine_total (S : ℕ) (ws : List ℝ) (h0 : ∀ w ∈ ws, 0 ≤ w) (hs : 0 < ws.sum) :
    Gives (combineSizes ws.length (some ws) S) fun sizes =>
      sizes.length = ws.length ∧ (∀ k ∈ sizes, 0 ≤ k) ∧
      sizes.sum ≤ S ∧ (S : ℤ) - ws.length < sizes.sum := by
  rw [combine_sizes _ S ws h0 hs]
  refine ⟨_, rfl, ?_⟩
  rw [List.take_of_length_le (by simp)]
  have hne : ws ≠ [] := by rintro rfl; simp at hs
  have hmap : (ws.map fun w => ⌊(S : ℝ) * (w / ws.sum)⌋) = ws.map fun w => ⌊(S / ws.sum : ℝ) * w⌋ := by
    apply List.map_congr_left
    intro w _
    congr 1
    ring
  have hb := floor_sum_bounds ws (S / ws.sum) hne
  rw [hmap]
  rw [div_mul_cancel₀ _ hs.ne'] at hb
  refine ⟨by simp, ?_, by exact_mod_cast hb.1, by exact_mod_cast hb.2⟩
  intro k hk
  obtain ⟨w, hw, rfl⟩ := List.mem_map.mp hk
  have := h0 w hw
  positivity

example : (∀ w ∈ ([1, 2, 0] : List ℝ), 0 ≤ w) ∧ 0 < ([1, 2, 0] : List ℝ).sum := by
  constructor
  · simp
  · norm_num

/-- C32: negative weights are rejected. -/
theorem combine_negative (n S : ℕ) (ws : List ℝ) (w : ℝ) (hw : w ∈ ws) (h : w < 0) :
    combineSizes n (some ws) S = .error .valueError := by
  have h1 : ws.any (· < 0) = true := by
    rw [List.any_eq_true]
    exact ⟨w, hw, by simpa using h⟩
  simp only [combineSizes, startWeights, Except.ok_bind', h1, if_true]

/-- C32: only the ratios of the weights matter. -/
theorem combine_scaling (n S : ℕ) (ws : List ℝ) (c : ℝ) (hc : 0 < c) (h0 : ∀ w ∈ ws, 0 ≤ w)
    (hs : 0 < ws.sum) :
    combineSizes n (some (ws.map (c * ·))) S = combineSizes n (some ws) S := by
  have hsum : (ws.map (c * ·)).sum = c * ws.sum := by
    rw [List.sum_map_mul_left, List.map_id']
  rw [combine_sizes n S ws h0 hs, combine_sizes n S (ws.map (c * ·))
    (by intro w hw; obtain ⟨v, hv, rfl⟩ := List.mem_map.mp hw; have := h0 v hv; positivity)
    (by rw [hsum]; positivity)]
  rw [hsum, List.map_map]
  congr 2
  apply List.map_congr_left
  intro w _
  simp only [Function.comp]
  rw [mul_div_mul_left _ _ hc.ne']

/-- C32: without weights every expert contributes the same number of draws. -/
theorem combine_default (n S : ℕ) (hn : 0 < n) :
    combineSizes n none S = .ok (List.replicate n ⌊(S : ℝ) / n⌋) := by
  have hn' : (0 : ℝ) < n := by exact_mod_cast hn
  have hsum : (List.replicate n (1 / (n : ℝ))).sum = 1 := by
    rw [List.sum_replicate, nsmul_eq_mul]
    field_simp
  have hany : (List.replicate n (1 / (n : ℝ))).any (· < 0) = false := by
    rw [List.any_eq_false]
    intro w hw
    rw [List.eq_of_mem_replicate hw]
    simp
  unfold combineSizes startWeights
  simp only [if_neg hn.ne', Except.ok_bind', hany, hsum, Bool.false_eq_true, if_false, one_ne_zero,
    Except.pure_eq]
  rw [List.map_replicate, List.map_replicate, List.take_of_length_le (by simp)]
  congr 3
  ring

/-- the total can fall short of the requested sample size: three experts, four draws -/
theorem combine_short : Gives (combineSizes 3 none 4) fun sizes => sizes.sum = 3 := by
  rw [combine_default 3 4 (by norm_num)]
  refine ⟨_, rfl, ?_⟩
  have : ⌊((4 : ℕ) : ℝ) / ((3 : ℕ) : ℝ)⌋ = 1 := by
    rw [Int.floor_eq_iff]; norm_num
  rw [this]
  simp

/-- weights beyond the number of experts are silently used for the normalisation only: the single
expert contributes half of the requested draws -/
theorem combine_surplus_weight : combineSizes 1 (some [1, 1]) 10 = .ok [5] := by
  rw [combine_sizes _ _ _ (by simp) (by norm_num)]
  have : ⌊((10 : ℕ) : ℝ) * (1 / (([1, 1] : List ℝ).sum))⌋ = 5 := by
    rw [Int.floor_eq_iff]; norm_num
  rw [List.map_cons, this]
  rfl

/-! ## C33 -/

/-- value stored under `x` -/
noncomputable def valAt (d : List (ℝ × ℝ)) (x : ℝ) : ℝ := ((d.filter fun p => p.1 = x).map Prod.snd).sum

theorem valAt_cons (a : ℝ × ℝ) (d : List (ℝ × ℝ)) (x : ℝ) :
    valAt (a :: d) x = (if a.1 = x then a.2 else 0) + valAt d x := by
  unfold valAt
  by_cases h : a.1 = x <;> simp [h]

theorem valAt_mem {d : List (ℝ × ℝ)} (hn : (d.map Prod.fst).Nodup) {a : ℝ × ℝ} (ha : a ∈ d) :
    valAt d a.1 = a.2 := by
  induction d with
  | nil => simp at ha
  | cons b d ih =>
    rw [List.map_cons, List.nodup_cons] at hn
    rw [valAt_cons]
    have zero : ∀ x, x ∉ d.map Prod.fst → valAt d x = 0 := by
      intro x hx
      unfold valAt
      rw [List.filter_eq_nil_iff.mpr]
      · simp
      · intro p hp h
        simp only [decide_eq_true_eq] at h
        exact hx (List.mem_map.mpr ⟨p, hp, h⟩)
    rcases List.mem_cons.mp ha with rfl | ha
    · simp [zero _ hn.1]
    · have : b.1 ≠ a.1 := fun h => hn.1 (List.mem_map.mpr ⟨a, ha, h.symm⟩)
      simp [this, ih hn.2 ha]

theorem dictAdd_keys (d : List (ℝ × ℝ)) (x v y : ℝ) :
    y ∈ (dictAdd d x v).map Prod.fst ↔ y = x ∨ y ∈ d.map Prod.fst := by
  induction d with
  | nil => simp [dictAdd]
  | cons a d ih =>
    unfold dictAdd
    split
    · rename_i h; simp only [List.map_cons, List.mem_cons, h]; tauto
    · simp only [List.map_cons, List.mem_cons, ih]; tauto

theorem dictAdd_nodup (d : List (ℝ × ℝ)) (x v : ℝ) (h : (d.map Prod.fst).Nodup) :
    ((dictAdd d x v).map Prod.fst).Nodup := by
  induction d with
  | nil => simp [dictAdd]
  | cons a d ih =>
    rw [List.map_cons, List.nodup_cons] at h
    unfold dictAdd
    split
    · simpa using h
    · rename_i hne
      rw [List.map_cons, List.nodup_cons, dictAdd_keys]
      refine ⟨?_, ih h.2⟩
      rintro (h' | h')
      · exact hne h'.symm
      · exact h.1 h'

theorem dictAdd_valAt (d : List (ℝ × ℝ)) (x v y : ℝ) :
    valAt (dictAdd d x v) y = valAt d y + if x = y then v else 0 := by
  induction d with
  | nil => rw [dictAdd, valAt_cons]; simp [valAt]
  | cons a d ih =>
    unfold dictAdd
    split
    · rename_i h
      rw [valAt_cons, valAt_cons, h]
      by_cases hy : a.1 = y <;> simp [hy]; ring
    · rw [valAt_cons, valAt_cons, ih]; ring

theorem dictAdd_sum (d : List (ℝ × ℝ)) (x v : ℝ) :
    ((dictAdd d x v).map Prod.snd).sum = (d.map Prod.snd).sum + v := by
  induction d with
  | nil => simp [dictAdd]
  | cons a d ih =>
    unfold dictAdd
    split
    · simp; ring
    · simp [ih]; ring

/-- one answer added to the dictionary -/
theorem addAnswer (l : List (ℝ × ℝ)) (c : ℝ) (d : List (ℝ × ℝ)) (hd : (d.map Prod.fst).Nodup) :
    let d' := l.foldl (fun d xp => dictAdd d xp.1 (xp.2 * c)) d
    (d'.map Prod.fst).Nodup ∧ (∀ y, y ∈ d'.map Prod.fst ↔ y ∈ d.map Prod.fst ∨ y ∈ l.map Prod.fst) ∧
    (∀ y, valAt d' y = valAt d y + ((l.filter fun xp => xp.1 = y).map Prod.snd).sum * c) ∧
    (d'.map Prod.snd).sum = (d.map Prod.snd).sum + (l.map Prod.snd).sum * c := by
  induction l generalizing d with
  | nil => simpa using hd
  | cons a l ih =>
    obtain ⟨h1, h2, h3, h4⟩ := ih (dictAdd d a.1 (a.2 * c)) (dictAdd_nodup _ _ _ hd)
    refine ⟨h1, ?_, ?_, ?_⟩
    · intro y
      rw [List.foldl_cons, h2, dictAdd_keys, List.map_cons, List.mem_cons]; tauto
    · intro y
      rw [List.foldl_cons, h3, dictAdd_valAt]
      by_cases hy : a.1 = y
      · simp [hy]; ring
      · simp [hy]
    · rw [List.foldl_cons, h4, dictAdd_sum, List.map_cons, List.sum_cons]; ring

/-- answers together with their weights -/
def answersOf (rs : List Response) (ws : List ℝ) : List ((List (ℝ × ℝ)) × ℝ × ℝ) :=
  (rs.zip ws).map fun rw => (rw.1.xs.zip rw.1.pdf, rw.2, rw.1.chips)

/-- all pooled weight, before normalisation -/
noncomputable def pooledTotal (answers : List ((List (ℝ × ℝ)) × ℝ × ℝ)) : ℝ :=
  (answers.map fun a => (a.1.map Prod.snd).sum * a.2.1 * a.2.2).sum

theorem pool_spec (rs : List Response) (ws : List ℝ) :
    ((pool rs ws).map Prod.fst).Nodup ∧
    (∀ y, y ∈ (pool rs ws).map Prod.fst ↔ ∃ a ∈ answersOf rs ws, y ∈ a.1.map Prod.fst) ∧
    (∀ y, valAt (pool rs ws) y = pooledAt (answersOf rs ws) y) ∧
    ((pool rs ws).map Prod.snd).sum = pooledTotal (answersOf rs ws) := by
  have main : ∀ (l : List (Response × ℝ)) (d : List (ℝ × ℝ)), (d.map Prod.fst).Nodup →
      let d' := l.foldl (fun d rw =>
        (rw.1.xs.zip rw.1.pdf).foldl (fun d xp => dictAdd d xp.1 (xp.2 * rw.2 * rw.1.chips)) d) d
      let as := l.map fun rw => (rw.1.xs.zip rw.1.pdf, rw.2, rw.1.chips)
      (d'.map Prod.fst).Nodup ∧
      (∀ y, y ∈ d'.map Prod.fst ↔ y ∈ d.map Prod.fst ∨ ∃ a ∈ as, y ∈ a.1.map Prod.fst) ∧
      (∀ y, valAt d' y = valAt d y + pooledAt as y) ∧
      (d'.map Prod.snd).sum = (d.map Prod.snd).sum + pooledTotal as := by
    intro l
    induction l with
    | nil => intro d hd; simpa [pooledAt, pooledTotal] using hd
    | cons rw l ih =>
      intro d hd
      have hstep : (rw.1.xs.zip rw.1.pdf).foldl
          (fun d xp => dictAdd d xp.1 (xp.2 * rw.2 * rw.1.chips)) d
          = (rw.1.xs.zip rw.1.pdf).foldl (fun d xp => dictAdd d xp.1 (xp.2 * (rw.2 * rw.1.chips))) d := by
        congr 1
        ext d xp : 2
        rw [mul_assoc]
      obtain ⟨h1, h2, h3, h4⟩ := addAnswer (rw.1.xs.zip rw.1.pdf) (rw.2 * rw.1.chips) d hd
      obtain ⟨g1, g2, g3, g4⟩ := ih _ h1
      dsimp only
      rw [List.foldl_cons, hstep]
      refine ⟨g1, ?_, ?_, ?_⟩
      · intro y
        rw [g2, h2, List.map_cons]
        simp only [List.mem_cons, exists_eq_or_imp]
        tauto
      · intro y
        rw [g3, h3, List.map_cons]
        simp only [pooledAt, List.map_cons, List.sum_cons]
        ring
      · rw [g4, h4, List.map_cons]
        simp only [pooledTotal, List.map_cons, List.sum_cons]
        ring
  have := main (rs.zip ws) [] (by simp)
  simpa [pool, answersOf, valAt] using this

theorem answersOf_scale (rs : List Response) (ws : List ℝ) (c : ℝ) :
    (∀ y, pooledAt (answersOf rs (ws.map (· / c))) y = pooledAt (answersOf rs ws) y / c) ∧
    pooledTotal (answersOf rs (ws.map (· / c))) = pooledTotal (answersOf rs ws) / c := by
  have : ∀ g : ((List (ℝ × ℝ)) × ℝ × ℝ) → ℝ, (∀ l w n, g (l, w / c, n) = g (l, w, n) / c) →
      ((answersOf rs (ws.map (· / c))).map g).sum = ((answersOf rs ws).map g).sum / c := by
    intro g hg
    unfold answersOf
    rw [List.zip_map_right]
    generalize rs.zip ws = l
    induction l with
    | nil => simp
    | cons a l ih =>
      simp only [List.map_cons, List.sum_cons, ih, Prod.map, id, hg]
      ring
  constructor
  · intro y
    exact this (fun a => ((a.1.filter fun xp => xp.1 = y).map Prod.snd).sum * a.2.1 * a.2.2)
      (by intro l w n; ring)
  · exact this (fun a => (a.1.map Prod.snd).sum * a.2.1 * a.2.2) (by intro l w n; ring)

/-- the histogram is a probability distribution over distinct values, with the given mean and
standard deviation -/
structure IsHistogram (d : List (ℝ × ℝ)) (mean std : ℝ) : Prop where
  distinct : (d.map Prod.fst).Nodup
  nonneg : ∀ xp ∈ d, 0 ≤ xp.2
  total : (d.map Prod.snd).sum = 1
  mean_eq : mean = (d.map fun xp => xp.1 * xp.2).sum
  std_nonneg : 0 ≤ std
  std_sq : std ^ 2 = (d.map fun xp => xp.2 * (xp.1 - mean) ^ 2).sum

/-- every column probability, weight and chip count is non-negative -/
def NonnegAnswers (rs : List Response) (ws : List ℝ) : Prop :=
  (∀ w ∈ ws, 0 ≤ w) ∧ ∀ r ∈ rs, 0 ≤ r.chips ∧ ∀ p ∈ r.pdf, 0 ≤ p

theorem pooledAt_nonneg (rs : List Response) (ws : List ℝ) (h : NonnegAnswers rs ws) (y : ℝ) :
    0 ≤ pooledAt (answersOf rs ws) y := by
  apply List.sum_nonneg
  intro v hv
  obtain ⟨a, ha, rfl⟩ := List.mem_map.mp hv
  obtain ⟨⟨r, w⟩, hrw, rfl⟩ := List.mem_map.mp ha
  obtain ⟨hr, hw⟩ := List.of_mem_zip hrw
  have h1 := h.1 w hw
  have h2 := h.2 r hr
  have h3 : 0 ≤ (((r.xs.zip r.pdf).filter fun xp => xp.1 = y).map Prod.snd).sum := by
    apply List.sum_nonneg
    intro v hv
    obtain ⟨⟨x, p⟩, hxp, rfl⟩ := List.mem_map.mp hv
    exact h2.2 p (List.of_mem_zip (List.mem_of_mem_filter hxp)).2
  have := h2.1
  positivity

/-- C33: for answers on one grid with non-negative weights and some pooled mass, what is handed to the
fit is a probability histogram; its weight at `x` is proportional to the sum over the answers of
weight times chips times probability given to `x`; mean and standard deviation are its own. -/
theorem pooled_histogram (rs : List Response) (ws : List ℝ)
    (hg : ∀ r ∈ rs, ∀ r' ∈ rs, r.grid = r'.grid) (h0 : NonnegAnswers rs ws)
    (hw : 0 < ws.sum) (ht : 0 < pooledTotal (answersOf rs ws)) :
    Gives (combineRoulette rs (some ws)) fun p =>
      IsHistogram p.dict p.mean p.std ∧
      (∀ x, x ∈ p.dict.map Prod.fst ↔ ∃ a ∈ answersOf rs ws, x ∈ a.1.map Prod.fst) ∧
      ∀ xp ∈ p.dict, xp.2 = pooledAt (answersOf rs ws) xp.1 / pooledTotal (answersOf rs ws) := by
  obtain ⟨h1, h2, h3, h4⟩ := pool_spec rs (ws.map (· / ws.sum))
  obtain ⟨s1, s2⟩ := answersOf_scale rs ws ws.sum
  have hany : ws.any (· < 0) = false := by
    rw [List.any_eq_false]
    intro w hw
    simpa using h0.1 w hw
  have hall : (rs.all fun r => r.grid = (rs.head?.map Response.grid).getD []) = true := by
    rw [List.all_eq_true]
    intro r hr
    cases rs with
    | nil => simp at hr
    | cons a rs => exact decide_eq_true (hg r hr a (by simp))
  have htot : ((pool rs (ws.map (· / ws.sum))).map Prod.snd).sum ≠ 0 := by
    rw [h4, s2]
    positivity
  set d := pool rs (ws.map (· / ws.sum)) with hd
  set total := (d.map Prod.snd).sum with htotal
  have hval : ∀ xp ∈ d, xp.2 / total
      = pooledAt (answersOf rs ws) xp.1 / pooledTotal (answersOf rs ws) := by
    intro xp hxp
    rw [← valAt_mem h1 hxp, h3, s1, h4, s2]
    field_simp
  set q := d.map fun xp => (xp.1, xp.2 / total) with hq
  have heq : combineRoulette rs (some ws) = .ok ⟨q, (q.map fun xp => xp.1 * xp.2).sum,
      Real.sqrt (q.map fun xp => xp.2 * (xp.1 - (q.map fun xp => xp.1 * xp.2).sum) ^ 2).sum⟩ := by
    simp only [combineRoulette, startWeights, Except.ok_bind', hany, hall, Bool.false_eq_true, if_false,
      Bool.not_true]
    rw [← hd, ← htotal, if_neg htot]
    rfl
  refine ⟨_, heq, ?_, ?_, ?_⟩
  · have hnn : ∀ xp ∈ q, 0 ≤ xp.2 := by
      intro xp hxp
      obtain ⟨yp, hyp, rfl⟩ := List.mem_map.mp hxp
      dsimp only
      rw [hval yp hyp]
      exact div_nonneg (pooledAt_nonneg rs ws h0 _) ht.le
    have hvar : 0 ≤ (q.map fun xp => xp.2 * (xp.1 - (q.map fun xp => xp.1 * xp.2).sum) ^ 2).sum := by
      apply List.sum_nonneg
      intro v hv
      obtain ⟨xp, hxp, rfl⟩ := List.mem_map.mp hv
      have := hnn xp hxp
      positivity
    refine ⟨?_, hnn, ?_, rfl, Real.sqrt_nonneg _, Real.sq_sqrt hvar⟩
    · simpa [hq, List.map_map, Function.comp_def] using h1
    · rw [hq, List.map_map]
      have : (Prod.snd ∘ fun xp : ℝ × ℝ => (xp.1, xp.2 / total)) = fun xp => xp.2 / total := rfl
      rw [this]
      simp only [div_eq_mul_inv]
      rw [List.sum_map_mul_right]
      exact mul_inv_cancel₀ htot
  · intro x
    have hk := h2 x
    have hk2 : (∃ a ∈ answersOf rs (ws.map (· / ws.sum)), x ∈ a.1.map Prod.fst) ↔
        ∃ a ∈ answersOf rs ws, x ∈ a.1.map Prod.fst := by
      unfold answersOf
      rw [List.zip_map_right]
      simp only [List.mem_map, exists_exists_and_eq_and, Prod.map, id]
    rw [← hk2, ← hk]
    dsimp only
    rw [hq, List.map_map]
    rfl
  · intro xp hxp
    obtain ⟨yp, hyp, rfl⟩ := List.mem_map.mp hxp
    exact hval yp hyp

/-- C33: the pooled histogram does not depend on the order of the answers. -/
theorem pooled_order (rs rs' : List Response) (ws ws' : List ℝ)
    (hl : rs.length = ws.length) (hl' : rs'.length = ws'.length)
    (hp : (rs.zip ws).Perm (rs'.zip ws'))
    (hg : ∀ r ∈ rs, ∀ r' ∈ rs, r.grid = r'.grid) (h0 : NonnegAnswers rs ws)
    (hw : 0 < ws.sum) (ht : 0 < pooledTotal (answersOf rs ws)) :
    ∃ p p', combineRoulette rs (some ws) = .ok p ∧ combineRoulette rs' (some ws') = .ok p' ∧
      p.dict.Perm p'.dict ∧ p.mean = p'.mean ∧ p.std = p'.std := by
  have e1 : rs.Perm rs' := by
    have := hp.map Prod.fst
    rwa [List.map_fst_zip hl.le, List.map_fst_zip hl'.le] at this
  have e2 : ws.Perm ws' := by
    have := hp.map Prod.snd
    rwa [List.map_snd_zip hl.ge, List.map_snd_zip hl'.ge] at this
  have ea : (answersOf rs ws).Perm (answersOf rs' ws') := hp.map _
  have et : pooledTotal (answersOf rs ws) = pooledTotal (answersOf rs' ws') := (ea.map _).sum_eq
  have ep : ∀ x, pooledAt (answersOf rs ws) x = pooledAt (answersOf rs' ws') x :=
    fun x => (ea.map _).sum_eq
  obtain ⟨p, h1, h2, h3, h4⟩ := pooled_histogram rs ws hg h0 hw ht
  obtain ⟨p', g1, g2, g3, g4⟩ := pooled_histogram rs' ws'
    (fun r hr r' hr' => hg r (e1.mem_iff.mpr hr) r' (e1.mem_iff.mpr hr'))
    ⟨fun w hw => h0.1 w (e2.mem_iff.mpr hw), fun r hr => h0.2 r (e1.mem_iff.mpr hr)⟩
    (by rw [← e2.sum_eq]; exact hw) (by rw [← et]; exact ht)
  have hperm : p.dict.Perm p'.dict := by
    rw [List.perm_ext_iff_of_nodup h2.distinct.of_map g2.distinct.of_map]
    have key : ∀ x, x ∈ p.dict.map Prod.fst ↔ x ∈ p'.dict.map Prod.fst := by
      intro x
      rw [h3, g3]
      constructor
      · rintro ⟨a, ha, h⟩; exact ⟨a, ea.mem_iff.mp ha, h⟩
      · rintro ⟨a, ha, h⟩; exact ⟨a, ea.mem_iff.mpr ha, h⟩
    intro xp
    constructor
    · intro h
      obtain ⟨yp, hyp, he⟩ := List.mem_map.mp ((key xp.1).mp (List.mem_map.mpr ⟨xp, h, rfl⟩))
      have : yp = xp := Prod.ext he (by rw [g4 yp hyp, h4 xp h, he, ep, et])
      rwa [← this]
    · intro h
      obtain ⟨yp, hyp, he⟩ := List.mem_map.mp ((key xp.1).mpr (List.mem_map.mpr ⟨xp, h, rfl⟩))
      have : yp = xp := Prod.ext he (by rw [h4 yp hyp, g4 xp h, he, ep, et])
      rwa [← this]
  have hm : p.mean = p'.mean := by
    rw [h2.mean_eq, g2.mean_eq]
    exact (hperm.map _).sum_eq
  refine ⟨p, p', h1, g1, hperm, hm, ?_⟩
  rw [← Real.sqrt_sq h2.std_nonneg, ← Real.sqrt_sq g2.std_nonneg, h2.std_sq, g2.std_sq, hm]
  rw [(hperm.map _).sum_eq]

/-- two answers on the same grid, the second with twice the weight -/
example : let rs : List Response := [⟨[1, 2], [1/2, 1/2], 4, [0, 10, 10, 10]⟩,
      ⟨[2, 3], [1/4, 3/4], 8, [0, 10, 10, 10]⟩]
    (∀ r ∈ rs, ∀ r' ∈ rs, r.grid = r'.grid) ∧ NonnegAnswers rs [1, 2] ∧
      0 < pooledTotal (answersOf rs [1, 2]) := by
  refine ⟨by simp, ⟨by simp, ?_⟩, ?_⟩
  · intro r hr
    simp only [List.mem_cons, List.not_mem_nil, or_false] at hr
    rcases hr with rfl | rfl <;> norm_num
  · simp [pooledTotal, answersOf]
    norm_num

/-- C33: negative weights are rejected. -/
theorem pooled_negative (rs : List Response) (ws : List ℝ) (w : ℝ) (hw : w ∈ ws) (h : w < 0) :
    combineRoulette rs (some ws) = .error .valueError := by
  have h1 : ws.any (· < 0) = true := by
    rw [List.any_eq_true]
    exact ⟨w, hw, by simpa using h⟩
  simp only [combineRoulette, startWeights, Except.ok_bind', h1, if_true]

/-- C33: answers on different grids are rejected. -/
theorem pooled_grids (rs : List Response) (ws : List ℝ) (r r' : Response) (hr : r ∈ rs) (hr' : r' ∈ rs)
    (h : r.grid ≠ r'.grid) : combineRoulette rs (some ws) = .error .valueError := by
  have h1 : (rs.all fun r => r.grid = (rs.head?.map Response.grid).getD []) = false := by
    by_contra hc
    rw [Bool.not_eq_false, List.all_eq_true] at hc
    have a := hc r hr
    have b := hc r' hr'
    simp only [decide_eq_true_eq] at a b
    exact h (a.trans b.symm)
  unfold combineRoulette startWeights
  simp only [Except.ok_bind', h1, Bool.not_false, if_true]
  split <;> rfl

end Verif.Props
