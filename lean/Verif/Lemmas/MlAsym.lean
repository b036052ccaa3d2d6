import Verif.Spec.Law
import Verif.Lemmas.MlNegBin
import Mathlib.Analysis.Convex.SpecificFunctions.Basic
import Mathlib.Analysis.Convex.SpecificFunctions.Pow
import Mathlib.Tactic

/-!
# Most likely AsymmetricLaplace distributions

With `p = b / kappa` and `r = b * kappa` (the scales of the two sides) the log-likelihood is
`- N log (p + r) - A / p - B / r`, where `A` and `B` are the total distances of the values above and below `mu`.
-/

namespace Verif.Ml
open Verif.Spec Filter Topology

/-- total distances of the values above and below `m` -/
noncomputable def above (s : List ℝ) (m : ℝ) : ℝ := (s.map fun x => max (x - m) 0).sum
noncomputable def below (s : List ℝ) (m : ℝ) : ℝ := (s.map fun x => max (m - x) 0).sum

noncomputable def rootDist (s : List ℝ) (m : ℝ) : ℝ := √(above s m) + √(below s m)

noncomputable def asymObj (s : List ℝ) (p r m : ℝ) : ℝ := -(s.length * Real.log (p + r)) - above s m / p - below s m / r

theorem asym_pos {k m b : ℝ} (hk : 0 < k) (hb : 0 < b) (x : ℝ) : 0 < asymLaplacePdf k m b x := by
  unfold asymLaplacePdf
  have := Real.exp_pos (if x < m then (x - m) / (b * k) else -(x - m) * k / b)
  positivity

theorem asym_log (s : List ℝ) {k m b : ℝ} (hk : 0 < k) (hb : 0 < b) :
    Real.log (lik (asymLaplacePdf k m b) s) = asymObj s (b / k) (b * k) m := by
  rw [log_lik' fun x _ => asym_pos hk hb x]
  have h : ∀ x, Real.log (asymLaplacePdf k m b x) =
      -Real.log (b / k + b * k) + (-(b / k)⁻¹) * max (x - m) 0 + (-(b * k)⁻¹) * max (m - x) 0 := by
    intro x
    unfold asymLaplacePdf
    rw [Real.log_mul (by positivity) (Real.exp_pos _).ne', Real.log_exp, one_div, Real.log_inv,
      show b * (k + 1 / k) = b / k + b * k by field_simp; ring]
    split_ifs with h
    · rw [max_eq_right (by linarith), max_eq_left (by linarith)]
      field_simp
      ring
    · rw [max_eq_left (by linarith), max_eq_right (by linarith)]
      field_simp
      ring
  simp only [h]
  rw [lsum_add, lsum_add, lsum_const, lsum_mul, lsum_mul]
  unfold asymObj above below
  rw [div_eq_mul_inv _ (b / k), div_eq_mul_inv _ (b * k)]
  ring

theorem above_nonneg (s : List ℝ) (m : ℝ) : 0 ≤ above s m := by
  have := lsum_le s (fun _ => 0) (fun x => max (x - m) 0) fun x _ => le_max_right _ _
  rwa [lsum_const, mul_zero] at this

theorem below_nonneg (s : List ℝ) (m : ℝ) : 0 ≤ below s m := by
  have := lsum_le s (fun _ => 0) (fun x => max (m - x) 0) fun x _ => le_max_right _ _
  rwa [lsum_const, mul_zero] at this

private theorem sum_pos_of_mem {s : List ℝ} {f : ℝ → ℝ} (h0 : ∀ x, 0 ≤ f x) {c : ℝ} (hc : c ∈ s) (h : 0 < f c) :
    0 < (s.map f).sum := by
  have := List.single_le_sum (l := s.map f) (by
    intro y hy
    obtain ⟨z, -, rfl⟩ := List.mem_map.1 hy
    exact h0 z) (f c) (List.mem_map.2 ⟨c, hc, rfl⟩)
  linarith

theorem above_pos {s : List ℝ} {m : ℝ} : 0 < above s m ↔ ∃ x ∈ s, m < x := by
  constructor
  · intro h
    by_contra hc
    push Not at hc
    have := lsum_le s (fun x => max (x - m) 0) (fun _ => 0) fun x hx => max_le (by linarith [hc x hx]) le_rfl
    rw [lsum_const, mul_zero] at this
    unfold above at h
    linarith
  · rintro ⟨x, hx, hm⟩
    exact sum_pos_of_mem (fun x => le_max_right _ _) hx (lt_max_of_lt_left (by linarith))

theorem below_pos {s : List ℝ} {m : ℝ} : 0 < below s m ↔ ∃ x ∈ s, x < m := by
  constructor
  · intro h
    by_contra hc
    push Not at hc
    have := lsum_le s (fun x => max (m - x) 0) (fun _ => 0) fun x hx => max_le (by linarith [hc x hx]) le_rfl
    rw [lsum_const, mul_zero] at this
    unfold below at h
    linarith
  · rintro ⟨x, hx, hm⟩
    exact sum_pos_of_mem (fun x => le_max_right _ _) hx (lt_max_of_lt_left (by linarith))

/-- the best value for a given location, and when it is reached -/
theorem cauchy_frac {A B p r : ℝ} (hA : 0 ≤ A) (hB : 0 ≤ B) (hp : 0 < p) (hr : 0 < r) :
    (√A + √B) ^ 2 / (p + r) ≤ A / p + B / r := by
  rw [← sub_nonneg]
  have h : A / p + B / r - (√A + √B) ^ 2 / (p + r) = (√A * r - √B * p) ^ 2 / (p * r * (p + r)) := by
    have h1 := Real.sq_sqrt hA
    have h2 := Real.sq_sqrt hB
    nth_rewrite 1 [← h1]
    nth_rewrite 1 [← h2]
    field_simp
    ring
  rw [h]
  positivity

theorem log_frac {N Q t : ℝ} (hN : 0 < N) (hQ : 0 < Q) (ht : 0 < t) :
    -(N * Real.log t) - Q / t ≤ -(N * Real.log (Q / N)) - N := by
  have := Real.log_le_sub_one_of_pos (x := Q / N / t) (by positivity)
  rw [Real.log_div (by positivity) ht.ne'] at this
  have h2 := mul_le_mul_of_nonneg_left this hN.le
  have h3 : N * (Q / N / t - 1) = Q / t - N := by field_simp
  rw [h3] at h2
  linarith

theorem asym_le {s : List ℝ} (hs : s ≠ []) {p r m : ℝ} (hp : 0 < p) (hr : 0 < r) (hQ : 0 < rootDist s m) :
    asymObj s p r m ≤ -(s.length * Real.log (rootDist s m ^ 2 / s.length)) - s.length := by
  have hN : (0 : ℝ) < s.length := by exact_mod_cast List.length_pos_iff.2 hs
  have h1 := cauchy_frac (above_nonneg s m) (below_nonneg s m) hp hr
  have h2 := log_frac hN (show 0 < rootDist s m ^ 2 by positivity) (show 0 < p + r by positivity)
  unfold asymObj
  unfold rootDist at h2 ⊢
  linarith

theorem asym_attained {s : List ℝ} (hs : s ≠ []) {m : ℝ} (hA : 0 < above s m) (hB : 0 < below s m) :
    ∃ p r : ℝ, 0 < p ∧ 0 < r ∧ asymObj s p r m = -(s.length * Real.log (rootDist s m ^ 2 / s.length)) - s.length := by
  have hN : (0 : ℝ) < s.length := by exact_mod_cast List.length_pos_iff.2 hs
  have h1 := Real.sqrt_pos.2 hA
  have h2 := Real.sqrt_pos.2 hB
  have hQ : 0 < rootDist s m := by unfold rootDist; positivity
  refine ⟨√(above s m) * rootDist s m / s.length, √(below s m) * rootDist s m / s.length, by positivity, by positivity, ?_⟩
  unfold asymObj
  have e1 : √(above s m) * rootDist s m / s.length + √(below s m) * rootDist s m / s.length = rootDist s m ^ 2 / s.length := by
    unfold rootDist
    ring
  have e2 : above s m / (√(above s m) * rootDist s m / s.length) = s.length * √(above s m) / rootDist s m := by
    nth_rewrite 1 [← Real.sq_sqrt hA.le]
    field_simp
  have e3 : below s m / (√(below s m) * rootDist s m / s.length) = s.length * √(below s m) / rootDist s m := by
    nth_rewrite 1 [← Real.sq_sqrt hB.le]
    field_simp
  rw [e1, e2, e3]
  have e4 : s.length * √(above s m) / rootDist s m + s.length * √(below s m) / rootDist s m = s.length := by
    rw [← add_div, ← mul_add]
    change (s.length : ℝ) * rootDist s m / rootDist s m = s.length
    field_simp
  linarith

/-- the best value is approached in any case -/
theorem asym_approached {s : List ℝ} (hs : s ≠ []) {m : ℝ} (hQ : 0 < rootDist s m) {v : ℝ}
    (hv : v < -(s.length * Real.log (rootDist s m ^ 2 / s.length)) - s.length) :
    ∃ p r : ℝ, 0 < p ∧ 0 < r ∧ v < asymObj s p r m := by
  have hN : (0 : ℝ) < s.length := by exact_mod_cast List.length_pos_iff.2 hs
  -- one side may be empty: its scale tends to zero
  have main : ∀ A : ℝ, 0 < A → v < -(s.length * Real.log (A / s.length)) - s.length →
      ∃ p r : ℝ, 0 < p ∧ 0 < r ∧ v < -(s.length * Real.log (p + r)) - A / p := by
    intro A hA hv
    have hc : ContinuousAt (fun r : ℝ => -(s.length * Real.log (A / s.length + r)) - s.length) 0 := by
      have : A / s.length + 0 ≠ 0 := by positivity
      have h1 : ContinuousAt (fun r : ℝ => Real.log (A / s.length + r)) 0 :=
        ContinuousAt.log (by fun_prop) this
      exact ((h1.const_mul _).neg).sub continuousAt_const
    have h2 := hc.eventually (lt_mem_nhds (show v < -(s.length * Real.log (A / s.length + 0)) - s.length by simpa using hv))
    obtain ⟨r, hr, hr0⟩ := ((h2.filter_mono nhdsWithin_le_nhds).and (self_mem_nhdsWithin (a := (0 : ℝ)) (s := Set.Ioi 0))).exists
    refine ⟨A / s.length, r, by positivity, hr0, ?_⟩
    have : A / (A / s.length) = s.length := by field_simp
    rw [this]
    exact hr
  rcases (above_nonneg s m).eq_or_lt with hA | hA
  · rcases (below_nonneg s m).eq_or_lt with hB | hB
    · exact absurd hQ (by simp [rootDist, ← hA, ← hB])
    · have h1 : rootDist s m ^ 2 = below s m := by simp [rootDist, ← hA, Real.sq_sqrt hB.le]
      rw [h1] at hv
      obtain ⟨r, p, hr, hp, h⟩ := main _ hB hv
      refine ⟨p, r, hp, hr, ?_⟩
      unfold asymObj
      rw [← hA, zero_div, add_comm p r]
      linarith
  · rcases (below_nonneg s m).eq_or_lt with hB | hB
    · have h1 : rootDist s m ^ 2 = above s m := by simp [rootDist, ← hB, Real.sq_sqrt hA.le]
      rw [h1] at hv
      obtain ⟨p, r, hp, hr, h⟩ := main _ hA hv
      refine ⟨p, r, hp, hr, ?_⟩
      unfold asymObj
      rw [← hB, zero_div]
      linarith
    · obtain ⟨p, r, hp, hr, h⟩ := asym_attained hs hA hB
      exact ⟨p, r, hp, hr, h ▸ hv⟩

/-- with an empty side other scales are always better -/
theorem asym_improve {s : List ℝ} {m p r : ℝ} (hs : s ≠ []) (hp : 0 < p) (hr : 0 < r) (h : above s m = 0 ∨ below s m = 0) :
    ∃ p' r' : ℝ, 0 < p' ∧ 0 < r' ∧ asymObj s p r m < asymObj s p' r' m := by
  have hN : (0 : ℝ) < s.length := by exact_mod_cast List.length_pos_iff.2 hs
  rcases h with h | h
  · refine ⟨p / 2, r, by positivity, hr, ?_⟩
    unfold asymObj
    rw [h, zero_div, zero_div]
    have := mul_lt_mul_of_pos_left (Real.log_lt_log (show 0 < p / 2 + r by positivity) (show p / 2 + r < p + r by linarith)) hN
    linarith
  · refine ⟨p, r / 2, hp, by positivity, ?_⟩
    unfold asymObj
    rw [h, zero_div, zero_div]
    have := mul_lt_mul_of_pos_left (Real.log_lt_log (show 0 < p + r / 2 by positivity) (show p + r / 2 < p + r by linarith)) hN
    linarith

private theorem lin {s : List ℝ} {l h t : ℝ} (hlh : l ≤ h) (h0 : 0 ≤ t) (h1 : t ≤ 1) (hno : ∀ x ∈ s, x ≤ l ∨ h ≤ x) :
    above s ((1 - t) * l + t * h) = (1 - t) * above s l + t * above s h ∧
    below s ((1 - t) * l + t * h) = (1 - t) * below s l + t * below s h := by
  have hm1 : l ≤ (1 - t) * l + t * h := by nlinarith
  have hm2 : (1 - t) * l + t * h ≤ h := by nlinarith
  unfold above below
  constructor
  · rw [← lsum_mul, ← lsum_mul, ← lsum_add]
    congr 1
    refine List.map_congr_left fun x hx => ?_
    rcases hno x hx with h | h
    · rw [max_eq_right (by linarith), max_eq_right (by linarith), max_eq_right (by linarith)]
      ring
    · rw [max_eq_left (by linarith), max_eq_left (by linarith), max_eq_left (by linarith)]
      ring
  · rw [← lsum_mul, ← lsum_mul, ← lsum_add]
    congr 1
    refine List.map_congr_left fun x hx => ?_
    rcases hno x hx with h | h
    · rw [max_eq_left (by linarith), max_eq_left (by linarith), max_eq_left (by linarith)]
      ring
    · rw [max_eq_right (by linarith), max_eq_right (by linarith), max_eq_right (by linarith)]
      ring

private theorem sqrt_chord {a a' t : ℝ} (ha : 0 ≤ a) (ha' : 0 ≤ a') (h0 : 0 ≤ t) (h1 : t ≤ 1) :
    (1 - t) * √a + t * √a' ≤ √((1 - t) * a + t * a') := by
  refine Real.le_sqrt_of_sq_le ?_
  have h2 := Real.sq_sqrt ha
  have h3 := Real.sq_sqrt ha'
  have : (1 - t) * a + t * a' - ((1 - t) * √a + t * √a') ^ 2 = t * (1 - t) * (√a - √a') ^ 2 := by
    nth_rewrite 1 [← h2]
    nth_rewrite 1 [← h3]
    ring
  have h4 : 0 ≤ t * (1 - t) * (√a - √a') ^ 2 := mul_nonneg (mul_nonneg h0 (by linarith)) (sq_nonneg _)
  linarith

private theorem sqrt_chord_lt {a a' t : ℝ} (ha : 0 ≤ a) (ha' : 0 ≤ a') (hne : a ≠ a') (h0 : 0 < t) (h1 : t < 1) :
    (1 - t) * √a + t * √a' < √((1 - t) * a + t * a') := by
  refine Real.lt_sqrt_of_sq_lt ?_
  have h2 := Real.sq_sqrt ha
  have h3 := Real.sq_sqrt ha'
  have : (1 - t) * a + t * a' - ((1 - t) * √a + t * √a') ^ 2 = t * (1 - t) * (√a - √a') ^ 2 := by
    nth_rewrite 1 [← h2]
    nth_rewrite 1 [← h3]
    ring
  have h5 : √a - √a' ≠ 0 := by
    intro h
    exact hne ((Real.sqrt_inj ha ha').1 (by linarith))
  have h4 : 0 < t * (1 - t) * (√a - √a') ^ 2 := mul_pos (mul_pos h0 (by linarith)) (by positivity)
  linarith

/-- between two neighbouring values the sum of the roots is at least the smaller one at the ends -/
private theorem between {s : List ℝ} {m : ℝ} (hm : m ∉ s) (hl : ∃ x ∈ s, x < m) (hh : ∃ x ∈ s, m < x) :
    ∃ c ∈ s, rootDist s c < rootDist s m := by
  classical
  obtain ⟨l, hlm⟩ : ∃ l, l = (s.toFinset.filter (· < m)).max' (by
    obtain ⟨x, hx, h⟩ := hl
    exact ⟨x, by simp [hx, h]⟩) := ⟨_, rfl⟩
  obtain ⟨h, hhm⟩ : ∃ h, h = (s.toFinset.filter (m < ·)).min' (by
    obtain ⟨x, hx, h⟩ := hh
    exact ⟨x, by simp [hx, h]⟩) := ⟨_, rfl⟩
  have hl1 : l ∈ s ∧ l < m := by
    have := Finset.max'_mem _ (⟨hl.choose, by simp [hl.choose_spec.1, hl.choose_spec.2]⟩ : (s.toFinset.filter (· < m)).Nonempty)
    rw [← hlm] at this
    simpa using this
  have hh1 : h ∈ s ∧ m < h := by
    have := Finset.min'_mem _ (⟨hh.choose, by simp [hh.choose_spec.1, hh.choose_spec.2]⟩ : (s.toFinset.filter (m < ·)).Nonempty)
    rw [← hhm] at this
    simpa using this
  have hno : ∀ x ∈ s, x ≤ l ∨ h ≤ x := by
    intro x hx
    rcases lt_trichotomy x m with h1 | h1 | h1
    · left
      rw [hlm]
      exact Finset.le_max' _ _ (by simp [hx, h1])
    · exact absurd (h1 ▸ hx) hm
    · right
      rw [hhm]
      exact Finset.min'_le _ _ (by simp [hx, h1])
  have hlh : l < h := hl1.2.trans hh1.2
  set t := (m - l) / (h - l) with ht
  have hd : 0 < h - l := by linarith
  have ht0 : 0 < t := div_pos (by linarith [hl1.2]) hd
  have ht1 : t < 1 := (div_lt_one hd).2 (by linarith [hh1.2])
  have hmt : m = (1 - t) * l + t * h := by
    rw [ht]
    field_simp
    ring
  obtain ⟨e1, e2⟩ := lin hlh.le ht0.le ht1.le hno
  rw [← hmt] at e1 e2
  have hne : above s l ≠ above s h := by
    -- the value `h` itself lies above `l`, and no value is nearer to `h` from above than to `l`
    have h1 : above s h < above s l := by
      have hle : ∀ x ∈ s, max (x - h) 0 ≤ max (x - l) 0 := fun x _ => max_le_max (by linarith) le_rfl
      unfold above
      have h2 := List.sum_lt_sum (l := s) (fun x => max (x - h) 0) (fun x => max (x - l) 0) hle
        ⟨h, hh1.1, by
          simp only [sub_self, max_self]
          exact lt_max_of_lt_left hd⟩
      exact h2
    exact h1.ne'
  have k1 := sqrt_chord_lt (above_nonneg s l) (above_nonneg s h) hne ht0 ht1
  have k2 := sqrt_chord (below_nonneg s l) (below_nonneg s h) ht0.le ht1.le
  rw [← e1] at k1
  rw [← e2] at k2
  have k3 : (1 - t) * rootDist s l + t * rootDist s h < rootDist s m := by
    unfold rootDist
    linarith
  by_contra hc
  push Not at hc
  have h1 := hc l hl1.1
  have h2 := hc h hh1.1
  nlinarith [mul_le_mul_of_nonneg_left h1 (show 0 ≤ 1 - t by linarith), mul_le_mul_of_nonneg_left h2 ht0.le]

/-- some value of the sample is as good a location as any number -/
theorem rootDist_le {s : List ℝ} (hs : s ≠ []) (m : ℝ) : ∃ c ∈ s, rootDist s c ≤ rootDist s m := by
  by_cases hm : m ∈ s
  · exact ⟨m, hm, le_rfl⟩
  by_cases hl : ∃ x ∈ s, x < m
  · by_cases hh : ∃ x ∈ s, m < x
    · obtain ⟨c, hc, h⟩ := between hm hl hh
      exact ⟨c, hc, h.le⟩
    · push Not at hh
      obtain ⟨c, hc, hmax⟩ := s.toFinset.exists_max_image id (by simpa using hs)
      have hc' : c ∈ s := by simpa using hc
      refine ⟨c, hc', ?_⟩
      have hA : above s c = 0 := by
        refine le_antisymm (not_lt.1 fun h => ?_) (above_nonneg s c)
        obtain ⟨x, hx, hcx⟩ := above_pos.1 h
        have := hmax x (by simpa using hx)
        simp only [id] at this
        linarith
      have hB : below s c ≤ below s m := by
        unfold below
        exact lsum_le s _ _ fun x hx => max_le_max (by linarith [hh c hc']) le_rfl
      unfold rootDist
      rw [hA, Real.sqrt_zero, zero_add]
      exact (Real.sqrt_le_sqrt hB).trans (le_add_of_nonneg_left (Real.sqrt_nonneg _))
  · push Not at hl
    obtain ⟨c, hc, hmin⟩ := s.toFinset.exists_min_image id (by simpa using hs)
    have hc' : c ∈ s := by simpa using hc
    refine ⟨c, hc', ?_⟩
    have hB : below s c = 0 := by
      refine le_antisymm (not_lt.1 fun h => ?_) (below_nonneg s c)
      obtain ⟨x, hx, hcx⟩ := below_pos.1 h
      have := hmin x (by simpa using hx)
      simp only [id] at this
      linarith
    have hA : above s c ≤ above s m := by
      unfold above
      exact lsum_le s _ _ fun x hx => max_le_max (by linarith [hl c hc']) le_rfl
    unfold rootDist
    rw [hB, Real.sqrt_zero, add_zero]
    exact (Real.sqrt_le_sqrt hA).trans (le_add_of_nonneg_right (Real.sqrt_nonneg _))

private theorem rootDist_pos {s : List ℝ} {m : ℝ} (h : 0 < above s m ∨ 0 < below s m) : 0 < rootDist s m := by
  unfold rootDist
  rcases h with h | h
  · exact add_pos_of_pos_of_nonneg (Real.sqrt_pos.2 h) (Real.sqrt_nonneg _)
  · exact add_pos_of_nonneg_of_pos (Real.sqrt_nonneg _) (Real.sqrt_pos.2 h)

private theorem rootDist_pos' {s : List ℝ} (h2 : ∃ x ∈ s, ∃ y ∈ s, x ≠ y) (m : ℝ) : 0 < rootDist s m := by
  obtain ⟨x, hx, y, hy, hne⟩ := h2
  apply rootDist_pos
  by_contra hc
  push Not at hc
  have h1 : ∀ z ∈ s, z = m := by
    intro z hz
    refine le_antisymm (not_lt.1 fun h => ?_) (not_lt.1 fun h => ?_)
    · exact absurd (above_pos.2 ⟨z, hz, h⟩) (not_lt.2 hc.1)
    · exact absurd (below_pos.2 ⟨z, hz, h⟩) (not_lt.2 hc.2)
  exact hne ((h1 x hx).trans (h1 y hy).symm)

private theorem value_mono {N Q Q' : ℝ} (hN : 0 < N) (hQ : 0 < Q) (h : Q < Q') :
    -(N * Real.log (Q' ^ 2 / N)) - N < -(N * Real.log (Q ^ 2 / N)) - N := by
  have h1 : Q ^ 2 / N < Q' ^ 2 / N := div_lt_div_of_pos_right (by nlinarith) hN
  have := mul_lt_mul_of_pos_left (Real.log_lt_log (by positivity) h1) hN
  linarith

/-- which samples have most likely scales and location -/
theorem asym_iff {s : List ℝ} (h2 : ∃ x ∈ s, ∃ y ∈ s, x ≠ y) :
    (∃ p r m : ℝ, 0 < p ∧ 0 < r ∧ ∀ p' r' m' : ℝ, 0 < p' → 0 < r' → asymObj s p' r' m' ≤ asymObj s p r m) ↔
    ∃ c ∈ s, (∃ x ∈ s, x < c) ∧ (∃ y ∈ s, c < y) ∧ ∀ d ∈ s, rootDist s c ≤ rootDist s d := by
  have hs : s ≠ [] := by
    obtain ⟨x, hx, -⟩ := h2
    exact List.ne_nil_of_mem hx
  have hN : (0 : ℝ) < s.length := by exact_mod_cast List.length_pos_iff.2 hs
  have hpos := rootDist_pos' h2
  constructor
  · rintro ⟨p, r, m, hp, hr, hbest⟩
    have hA : 0 < above s m := by
      refine lt_of_le_of_ne (above_nonneg s m) fun h => ?_
      obtain ⟨p', r', hp', hr', h'⟩ := asym_improve hs hp hr (Or.inl h.symm)
      exact absurd (hbest p' r' m hp' hr') (not_le.2 h')
    have hB : 0 < below s m := by
      refine lt_of_le_of_ne (below_nonneg s m) fun h => ?_
      obtain ⟨p', r', hp', hr', h'⟩ := asym_improve hs hp hr (Or.inr h.symm)
      exact absurd (hbest p' r' m hp' hr') (not_le.2 h')
    have hall : ∀ d, rootDist s m ≤ rootDist s d := by
      intro d
      by_contra h
      have h1 := value_mono hN (hpos d) (not_le.1 h)
      obtain ⟨p', r', hp', hr', h'⟩ := asym_approached hs (hpos d) h1
      have h3 := asym_le hs hp hr (hpos m)
      have h4 := hbest p' r' d hp' hr'
      linarith
    have hms : m ∈ s := by
      by_contra hms
      obtain ⟨c, -, h⟩ := between hms (below_pos.1 hB) (above_pos.1 hA)
      exact absurd (hall c) (not_le.2 h)
    exact ⟨m, hms, below_pos.1 hB, above_pos.1 hA, fun d _ => hall d⟩
  · rintro ⟨c, hc, hl, hh, hall⟩
    obtain ⟨p, r, hp, hr, he⟩ := asym_attained hs (above_pos.2 hh) (below_pos.2 hl)
    refine ⟨p, r, c, hp, hr, fun p' r' m' hp' hr' => (asym_le hs hp' hr' (hpos m')).trans ?_⟩
    rw [he]
    obtain ⟨d, hd, h⟩ := rootDist_le hs m'
    rcases ((hall d hd).trans h).eq_or_lt with h1 | h1
    · rw [h1]
    · exact (value_mono hN (hpos c) h1).le

end Verif.Ml
