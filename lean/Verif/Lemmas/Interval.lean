import Verif.Model.Interval
import Verif.Spec.Interval
import Verif.Lemmas.Modifier
import Verif.Lemmas.ModifierBase
import Verif.Lemmas.Loop
import Mathlib.Probability.CDF
import Mathlib.Algebra.Order.BigOperators.Group.List

/-! Facts about quantiles, prefix sums of decreasing lists, grids and angles. -/

namespace Verif.Interval
open Verif Verif.Modifier Verif.Spec MeasureTheory Filter Topology

theorem le_of_forall_real {a b : EReal} (h : ∀ x : ℝ, b ≤ (x : EReal) → a ≤ (x : EReal)) : a ≤ b := by
  induction b using EReal.rec with
  | bot =>
    have : a = ⊥ := by
      rw [EReal.eq_bot_iff_forall_lt]
      intro y
      exact lt_of_le_of_lt (h (y - 1) bot_le) (by exact_mod_cast sub_one_lt y)
    simp [this]
  | coe r => exact h r le_rfl
  | top => exact le_top

theorem ppf_mono (b : Base) {p q : ℝ} (hp : 0 < p) (hpq : p ≤ q) (hq : q ≤ 1) :
    b.ppf p ≤ b.ppf q :=
  le_of_forall_real fun x hx =>
    (b.ppf_inverse p hp (hpq.trans hq) x).mpr
      (hpq.trans ((b.ppf_inverse q (hp.trans_le hpq) hq x).mp hx))

theorem ppf_real (b : Base) {q : ℝ} (h0 : 0 < q) (h1 : q < 1) : ∃ r : ℝ, b.ppf q = r := by
  generalize hQ : b.ppf q = Q
  induction Q using EReal.rec with
  | bot =>
    exfalso
    have ht := ProbabilityTheory.tendsto_cdf_atBot b.law
    obtain ⟨x, hx⟩ := (ht.eventually (gt_mem_nhds h0)).exists
    have := (b.ppf_inverse q h0 h1.le x).mp (by rw [hQ]; exact bot_le)
    rw [← ProbabilityTheory.cdf_eq_real] at this
    linarith
  | coe r => exact ⟨r, rfl⟩
  | top =>
    exfalso
    have ht := ProbabilityTheory.tendsto_cdf_atTop b.law
    obtain ⟨x, hx⟩ := (ht.eventually (lt_mem_nhds h1)).exists
    have := (b.ppf_inverse q h0 h1.le x).mpr (by rw [← ProbabilityTheory.cdf_eq_real]; exact hx.le)
    rw [hQ] at this
    simp at this

theorem real_Iio_le (μ : Measure ℝ) [IsProbabilityMeasure μ] {r p : ℝ}
    (h : ∀ x < r, μ.real (Set.Iic x) ≤ p) : μ.real (Set.Iio r) ≤ p := by
  have hU : Set.Iio r = ⋃ n : ℕ, Set.Iic (r - 1 / ((n : ℝ) + 1)) := by
    ext y
    simp only [Set.mem_Iio, Set.mem_iUnion, Set.mem_Iic]
    constructor
    · intro hy
      obtain ⟨n, hn⟩ := exists_nat_one_div_lt (sub_pos.mpr hy)
      exact ⟨n, by linarith⟩
    · rintro ⟨n, hn⟩
      have : 0 < 1 / ((n : ℝ) + 1) := by positivity
      linarith
  have hm : Monotone fun n : ℕ => Set.Iic (r - 1 / ((n : ℝ) + 1)) := by
    intro a b hab
    apply Set.Iic_subset_Iic.mpr
    have : 1 / ((b : ℝ) + 1) ≤ 1 / ((a : ℝ) + 1) := by
      apply one_div_le_one_div_of_le (by positivity)
      have : (a : ℝ) ≤ b := by exact_mod_cast hab
      linarith
    linarith
  have ht := tendsto_measure_iUnion_atTop (μ := μ) hm
  rw [← hU] at ht
  have ht' : Tendsto (fun n : ℕ => μ.real (Set.Iic (r - 1 / ((n : ℝ) + 1)))) atTop
      (𝓝 (μ.real (Set.Iio r))) := (ENNReal.tendsto_toReal (measure_ne_top _ _)).comp ht
  refine le_of_tendsto ht' (Eventually.of_forall fun n => h _ ?_)
  have : 0 < 1 / ((n : ℝ) + 1) := by positivity
  linarith

/-- both tails of a quantile -/
theorem quantile_tails (b : Base) {q r : ℝ} (h0 : 0 < q) (h1 : q < 1) (hr : b.ppf q = r) :
    b.law.real (Set.Iio r) ≤ q ∧ q ≤ b.law.real (Set.Iic r) := by
  refine ⟨real_Iio_le _ fun x hx => ?_, (b.ppf_inverse q h0 h1.le r).mp hr.le⟩
  by_contra hc
  push Not at hc
  have := (b.ppf_inverse q h0 h1.le x).mpr hc.le
  rw [hr] at this
  exact absurd (by exact_mod_cast this) (not_le.mpr hx)

theorem ppf_integer (b : Base) (hd : b.discrete = true) {q r : ℝ} (h0 : 0 < q) (h1 : q < 1)
    (hr : b.ppf q = r) : ∃ k : ℤ, r = k := by
  obtain ⟨hz, -⟩ := b.discrete_law hd
  have hF : b.law.real (Set.Iic r) = b.law.real (Set.Iic (⌊r⌋ : ℝ)) := by
    apply measureReal_congr
    filter_upwards [hz] with y hy
    obtain ⟨k, rfl⟩ := hy
    apply propext
    change (k : ℝ) ≤ r ↔ (k : ℝ) ≤ (⌊r⌋ : ℝ)
    rw [Int.cast_le, Int.le_floor]
  have hq := (b.ppf_inverse q h0 h1.le r).mp hr.le
  rw [hF] at hq
  have := (b.ppf_inverse q h0 h1.le _).mpr hq
  rw [hr] at this
  exact ⟨⌊r⌋, le_antisymm (by exact_mod_cast this) (Int.floor_le r)⟩

theorem pyInt_int (k : ℤ) : pyInt (((k : ℝ)) : EReal) = .ok k := by
  unfold pyInt
  rw [if_neg (by simp)]
  simp

theorem compl_tail (μ : Measure ℝ) [IsProbabilityMeasure μ] (r : ℝ) :
    μ.real (Set.Ioi r) = 1 - μ.real (Set.Iic r) ∧ μ.real (Set.Ici r) = 1 - μ.real (Set.Iio r) := by
  constructor
  · rw [← Set.compl_Iic, probReal_compl_eq_one_sub measurableSet_Iic]
  · rw [← Set.compl_Iio, probReal_compl_eq_one_sub measurableSet_Iio]

theorem equalTailed_of (b : Base) {m lo hi : ℝ} (h0 : 0 < m) (h1 : m < 1)
    (hl : b.ppf ((1 - m) / 2) = lo) (hu : b.ppf (1 - (1 - m) / 2) = hi) :
    EqualTailed b.law m lo hi := by
  obtain ⟨l1, l2⟩ := quantile_tails b (by linarith) (by linarith) hl
  obtain ⟨u1, u2⟩ := quantile_tails b (by linarith) (by linarith) hu
  have hm := ppf_mono b (p := (1 - m) / 2) (q := 1 - (1 - m) / 2) (by linarith) (by linarith)
    (by linarith)
  rw [hl, hu] at hm
  refine ⟨by exact_mod_cast hm, l1, ?_, l2, ?_⟩
  · rw [(compl_tail _ _).1]; linarith
  · rw [(compl_tail _ _).2]; linarith

/-! ## Decreasing lists -/

theorem takeMass_spec (mass : ℝ) (l : List (ℤ × ℝ)) (t : ℝ) (hl : l ≠ []) :
    ∃ taken rest, l = taken ++ rest ∧ takeMass mass t l = taken.map Prod.fst ∧ taken ≠ [] ∧
      (rest ≠ [] → mass ≤ t + (taken.map Prod.snd).sum) ∧
      (t + (taken.dropLast.map Prod.snd).sum < mass ∨ taken.length = 1) := by
  induction l generalizing t with
  | nil => exact absurd rfl hl
  | cons a rest ih =>
    obtain ⟨v, p⟩ := a
    unfold takeMass
    by_cases h : t + p ≥ mass
    · rw [if_pos h]
      exact ⟨[(v, p)], rest, by simp, by simp, by simp, fun _ => by simpa using h, .inr (by simp)⟩
    · rw [if_neg h]
      push Not at h
      by_cases hr : rest = []
      · subst hr
        exact ⟨[(v, p)], [], by simp, by simp [takeMass], by simp, by simp, .inr (by simp)⟩
      · obtain ⟨tk, rs, h1, h2, h3, h4, h5⟩ := ih (t + p) hr
        refine ⟨(v, p) :: tk, rs, by simp [← h1], by simp [h2], by simp, fun hh => ?_, ?_⟩
        · have := h4 hh
          simp only [List.map_cons, List.sum_cons]
          linarith
        · left
          rw [List.dropLast_cons_of_ne_nil h3]
          simp only [List.map_cons, List.sum_cons]
          rcases h5 with h5 | h5
          · linarith
          · obtain ⟨z, hz⟩ := List.length_eq_one_iff.mp h5
            simp [hz]; exact h

theorem take_sum_cons {l : List ℝ} {a : ℝ} (h : (a :: l).Pairwise (· ≥ ·)) (n : ℕ)
    (hn : n ≤ l.length) : (l.take n).sum ≤ ((a :: l).take n).sum := by
  induction l generalizing a n with
  | nil => simp at hn; simp [hn]
  | cons b l ih =>
    cases n with
    | zero => simp
    | succ n =>
      simp only [List.take_succ_cons, List.sum_cons]
      have hab : a ≥ b := (List.pairwise_cons.mp h).1 b (by simp)
      have := ih (List.pairwise_cons.mp h).2 n (by simpa using hn)
      simp only [List.length_cons] at hn
      linarith

/-- the best way to pick `n` entries of a decreasing list is to take the first `n` -/
theorem sublist_sum_le {l' l : List ℝ} (hs : l'.Sublist l) (h : l.Pairwise (· ≥ ·)) :
    l'.sum ≤ (l.take l'.length).sum := by
  induction hs with
  | slnil => simp
  | @cons l₁ l₂ a hs ih =>
    exact (ih (List.pairwise_cons.mp h).2).trans (take_sum_cons h _ hs.length_le)
  | @cons_cons l₁ l₂ a hs ih =>
    simp only [List.sum_cons, List.length_cons, List.take_succ_cons]
    have := ih (List.pairwise_cons.mp h).2
    linarith

theorem take_sum_mono {l : List ℝ} (h : ∀ x ∈ l, 0 ≤ x) {n m : ℕ} (hnm : n ≤ m) :
    (l.take n).sum ≤ (l.take m).sum := by
  apply List.Sublist.sum_le_sum (List.take_sublist_take_left hnm)
  intro x hx
  exact h x (List.mem_of_mem_take hx)

theorem foldl_min_spec (l : List ℤ) (a : ℤ) :
    l.foldl min a ∈ a :: l ∧ ∀ x ∈ a :: l, l.foldl min a ≤ x := by
  induction l generalizing a with
  | nil => simp
  | cons b l ih =>
    obtain ⟨h1, h2⟩ := ih (min a b)
    rw [List.foldl_cons]
    constructor
    · rcases List.mem_cons.mp h1 with h | h
      · rw [h]; rcases min_choice a b with h' | h' <;> simp [h']
      · simp [h]
    · intro x hx
      rcases List.mem_cons.mp hx with rfl | hx
      · exact (h2 _ (List.mem_cons_self ..)).trans (min_le_left _ _)
      · rcases List.mem_cons.mp hx with rfl | hx
        · exact (h2 _ (List.mem_cons_self ..)).trans (min_le_right _ _)
        · exact h2 x (by simp [hx])

theorem foldl_max_spec (l : List ℤ) (a : ℤ) :
    l.foldl max a ∈ a :: l ∧ ∀ x ∈ a :: l, x ≤ l.foldl max a := by
  induction l generalizing a with
  | nil => simp
  | cons b l ih =>
    obtain ⟨h1, h2⟩ := ih (max a b)
    rw [List.foldl_cons]
    constructor
    · rcases List.mem_cons.mp h1 with h | h
      · rw [h]; rcases max_choice a b with h' | h' <;> simp [h']
      · simp [h]
    · intro x hx
      rcases List.mem_cons.mp hx with rfl | hx
      · exact (le_max_left _ _).trans (h2 _ (List.mem_cons_self ..))
      · rcases List.mem_cons.mp hx with rfl | hx
        · exact (le_max_right _ _).trans (h2 _ (List.mem_cons_self ..))
        · exact h2 x (by simp [hx])

/-- what the interval search selects -/
theorem discreteHdi_spec {f : ℤ → ℝ} {grid : List ℤ} {sorted : List (ℤ × ℝ)} (mass : ℝ)
    (hs : IsDescending f grid sorted) (hg : grid ≠ []) :
    ∃ (S rest : List ℤ) (lo hi : ℤ), discreteHdi mass sorted = .ok (lo, hi) ∧
      (S ++ rest).Perm grid ∧ ((S ++ rest).map f).Pairwise (· ≥ ·) ∧ S ≠ [] ∧
      (rest ≠ [] → mass ≤ (S.map f).sum) ∧
      ((S.dropLast.map f).sum < mass ∨ S.length = 1) ∧
      lo ∈ S ∧ hi ∈ S ∧ ∀ x ∈ S, lo ≤ x ∧ x ≤ hi := by
  obtain ⟨hp, hd⟩ := hs
  have hne : sorted ≠ [] := by
    intro h; rw [h] at hp; have := hp.symm.eq_nil; simp at this; exact hg this
  obtain ⟨tk, rs, h1, h2, h3, h4, h5⟩ := takeMass_spec mass sorted 0 hne
  have hf : ∀ a ∈ sorted, a.2 = f a.1 := by
    intro a ha
    have := hp.mem_iff.mp ha
    simp only [List.mem_map] at this
    obtain ⟨x, -, rfl⟩ := this
    rfl
  have hmap : ∀ l : List (ℤ × ℝ), (∀ a ∈ l, a ∈ sorted) → l.map Prod.snd = (l.map Prod.fst).map f := by
    intro l hl
    rw [List.map_map]
    apply List.map_congr_left
    intro a ha
    exact hf a (hl a ha)
  cases htk : tk.map Prod.fst with
  | nil => simp at htk; exact absurd htk h3
  | cons v vs =>
    refine ⟨tk.map Prod.fst, rs.map Prod.fst, vs.foldl min v, vs.foldl max v, ?_, ?_, ?_, ?_, ?_, ?_,
      ?_, ?_, ?_⟩
    · unfold discreteHdi
      rw [h2, htk]
    · rw [← List.map_append, ← h1]
      have := hp.map Prod.fst
      simpa [List.map_map, Function.comp_def] using this
    · rw [← List.map_append, ← h1, ← hmap sorted (fun _ h => h)]
      exact List.pairwise_map.mpr hd
    · simpa using h3
    · intro hr
      rw [← hmap tk (fun a ha => by rw [h1]; simp [ha])]
      have := h4 (by simpa using hr)
      linarith
    · rw [List.map_dropLast.symm, ← hmap _ (fun a ha => by
        rw [h1]; exact List.mem_append_left _ (List.mem_of_mem_dropLast ha))]
      simpa using h5
    · rw [htk]; exact (foldl_min_spec vs v).1
    · rw [htk]; exact (foldl_max_spec vs v).1
    · intro x hx
      rw [htk] at hx
      exact ⟨(foldl_min_spec vs v).2 x hx, (foldl_max_spec vs v).2 x hx⟩

/-! ## Grids -/

theorem linspaceInt_length (a b : ℤ) (n : ℕ) : (linspaceInt a b n).length = n := by
  simp [linspaceInt]

theorem linspaceInt_get (a b : ℤ) (n i : ℕ) (hi : i < (linspaceInt a b n).length) :
    (linspaceInt a b n)[i] = ⌊(a : ℚ) + i * (((b - a : ℤ) : ℚ) / (n - 1 : ℕ))⌋ := by
  simp [linspaceInt]

/-! ## Angles -/

theorem wrapAngle_same (a : ℝ) : SameAngle a (wrapAngle a) := by
  have h : wrapAngle a = toIocMod Real.two_pi_pos (-Real.pi) a := by
    unfold wrapAngle
    rw [← Complex.arg_exp_mul_I]
    congr 1
    apply Complex.ext
    · simp [Complex.exp_ofReal_mul_I_re]
    · simp [Complex.exp_ofReal_mul_I_im]
  rw [h]
  refine ⟨?_, -toIocDiv Real.two_pi_pos (-Real.pi) a, ?_⟩
  · have := toIocMod_mem_Ioc Real.two_pi_pos (-Real.pi) a
    rwa [show -Real.pi + 2 * Real.pi = Real.pi by ring] at this
  · rw [toIocMod]
    push_cast
    rw [zsmul_eq_mul]
    ring

end Verif.Interval
