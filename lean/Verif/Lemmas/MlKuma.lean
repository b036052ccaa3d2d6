import Verif.Spec.MoreLaws
import Verif.Lemmas.MlNegBin
import Verif.Lemmas.MlConvex
import Mathlib.Analysis.SpecialFunctions.Trigonometric.DerivHyp
import Mathlib.Analysis.Convex.Deriv
import Mathlib.Tactic

/-!
# Most likely Kumaraswamy distributions

With `t = -log x` and `w z = -log (1 - exp (-z))`, the log-density is `log a + log b - (a - 1) t - (b - 1) w (a t)`.  For a given
`a` the best `b` is `n / ∑ w (a t)`; what remains is a strictly concave function of `a`.
-/

namespace Verif.Ml
open Verif.Spec Filter Topology Set

noncomputable def kw (z : ℝ) : ℝ := -Real.log (1 - Real.exp (-z))

theorem kw_base {z : ℝ} (hz : 0 < z) : 0 < 1 - Real.exp (-z) := by
  have := Real.exp_lt_one_iff.2 (show -z < 0 by linarith)
  linarith

theorem kw_ge {z : ℝ} (hz : 0 < z) : Real.exp (-z) < kw z := by
  unfold kw
  have := Real.log_lt_sub_one_of_pos (kw_base hz) (by have := Real.exp_pos (-z); linarith)
  linarith

theorem kw_pos {z : ℝ} (hz : 0 < z) : 0 < kw z := (Real.exp_pos _).trans (kw_ge hz)

theorem kw_deriv {z : ℝ} (hz : 0 < z) : HasDerivAt kw (-(Real.exp z - 1)⁻¹) z := by
  have h1 := ((hasDerivAt_neg z).exp.const_sub 1).log (kw_base hz).ne'
  refine h1.neg.congr_deriv ?_
  have h2 : Real.exp z * Real.exp (-z) = 1 := by rw [← Real.exp_add]; simp
  have h3 : Real.exp z - 1 ≠ 0 := by
    have := Real.add_one_lt_exp hz.ne'
    linarith
  have h4 := (kw_base hz).ne'
  rw [neg_inj]
  field_simp
  linarith

private theorem exp_sub_pos {z : ℝ} (hz : 0 < z) : 0 < Real.exp z - 1 := by
  have := Real.add_one_lt_exp hz.ne'
  linarith

/-- `w` is log-convex -/
theorem kw_logconvex : ConvexOn ℝ (Ioi 0) fun z => Real.log (kw z) := by
  have hd : ∀ z, 0 < z → HasDerivAt (fun z => Real.log (kw z)) (-((Real.exp z - 1) * kw z)⁻¹) z := by
    intro z hz
    have := (kw_deriv hz).log (kw_pos hz).ne'
    refine this.congr_deriv ?_
    have h1 := (kw_pos hz).ne'
    have h2 := (exp_sub_pos hz).ne'
    rw [neg_div, mul_inv]
    rfl
  refine MonotoneOn.convexOn_of_deriv (convex_Ioi 0) (fun z hz => (hd z hz).continuousAt.continuousWithinAt) ?_ ?_
  · intro z hz
    rw [interior_Ioi] at hz
    exact (hd z hz).differentiableAt.differentiableWithinAt
  · rw [interior_Ioi]
    have hk : MonotoneOn (fun z => (Real.exp z - 1) * kw z) (Ioi 0) := by
      have hkd : ∀ z, 0 < z → HasDerivAt (fun z => (Real.exp z - 1) * kw z) (Real.exp z * kw z - 1) z := by
        intro z hz
        have := ((Real.hasDerivAt_exp z).sub_const 1).mul (kw_deriv hz)
        refine this.congr_deriv ?_
        have h2 := (exp_sub_pos hz).ne'
        field_simp
        ring
      refine monotoneOn_of_deriv_nonneg (convex_Ioi 0) (fun z hz => (hkd z hz).continuousAt.continuousWithinAt) ?_ ?_
      · intro z hz
        rw [interior_Ioi] at hz
        exact (hkd z hz).differentiableAt.differentiableWithinAt
      · intro z hz
        rw [interior_Ioi] at hz
        rw [(hkd z hz).deriv]
        have h2 : Real.exp z * Real.exp (-z) = 1 := by rw [← Real.exp_add]; simp
        have h3 := mul_le_mul_of_nonneg_left (kw_ge hz).le (Real.exp_pos z).le
        linarith
    intro x hx y hy hxy
    rw [(hd x hx).deriv, (hd y hy).deriv, neg_le_neg_iff]
    exact inv_anti₀ (mul_pos (exp_sub_pos hx) (kw_pos hx)) (hk hx hy hxy)

/-- `log z + w z` is strictly concave -/
theorem kw_concave : StrictConcaveOn ℝ (Ioi 0) fun z => Real.log z + kw z := by
  have hd : ∀ z, 0 < z → HasDerivAt (fun z => Real.log z + kw z) (z⁻¹ - (Real.exp z - 1)⁻¹) z := fun z hz =>
    ((Real.hasDerivAt_log hz.ne').add (kw_deriv hz)).congr_deriv (by ring)
  refine StrictAntiOn.strictConcaveOn_of_deriv (convex_Ioi 0) (fun z hz => (hd z hz).continuousAt.continuousWithinAt) ?_
  rw [interior_Ioi]
  have hk : StrictAntiOn (fun z => z⁻¹ - (Real.exp z - 1)⁻¹) (Ioi 0) := by
    have hkd : ∀ z, 0 < z → HasDerivAt (fun z => z⁻¹ - (Real.exp z - 1)⁻¹)
        (Real.exp z / (Real.exp z - 1) ^ 2 - 1 / z ^ 2) z := by
      intro z hz
      have := (hasDerivAt_inv hz.ne').sub (((Real.hasDerivAt_exp z).sub_const 1).inv (exp_sub_pos hz).ne')
      refine this.congr_deriv ?_
      rw [neg_div]
      simp only [one_div]
      ring
    refine strictAntiOn_of_deriv_neg (convex_Ioi 0) (fun z hz => (hkd z hz).continuousAt.continuousWithinAt) ?_
    intro z hz
    rw [interior_Ioi] at hz
    have hz : 0 < z := hz
    rw [(hkd z hz).deriv, sub_neg, div_lt_div_iff₀ (pow_pos (exp_sub_pos hz) 2) (by positivity), one_mul]
    have h1 : z / 2 < Real.sinh (z / 2) := Real.self_lt_sinh_iff.2 (by linarith)
    have h2 : Real.exp z - 1 = Real.exp (z / 2) * (2 * Real.sinh (z / 2)) := by
      rw [Real.sinh_eq]
      have e1 : Real.exp z = Real.exp (z / 2) * Real.exp (z / 2) := by rw [← Real.exp_add]; ring_nf
      have e2 : Real.exp (z / 2) * Real.exp (-(z / 2)) = 1 := by rw [← Real.exp_add]; simp
      rw [e1]
      linear_combination e2
    have h3 : Real.exp (z / 2) ^ 2 = Real.exp z := by rw [← Real.exp_nat_mul]; congr 1; push_cast; ring
    rw [h2, mul_pow, h3]
    refine mul_lt_mul_of_pos_left ?_ (Real.exp_pos z)
    exact pow_lt_pow_left₀ (by linarith) hz.le two_ne_zero
  intro x hx y hy hxy
  rw [(hd x hx).deriv, (hd y hy).deriv]
  exact hk hx hy hxy

/-! ### the sample -/

section Sample
variable (ts : List ℝ)

noncomputable def kwSum (a : ℝ) : ℝ := (ts.map fun t => kw (a * t)).sum

/-- what remains for the best `b` -/
noncomputable def kumProf (a : ℝ) : ℝ := ts.length * Real.log a - ts.length * Real.log (kwSum ts a) + kwSum ts a - a * ts.sum

variable {ts} (hs : ts ≠ []) (hpos : ∀ t ∈ ts, 0 < t)
include hs hpos

theorem kwSum_pos {a : ℝ} (ha : 0 < a) : 0 < kwSum ts a := by
  obtain ⟨t, ht⟩ := List.exists_mem_of_ne_nil ts hs
  have := le_sum_of_mem (l := ts) (f := fun t => kw (a * t)) (fun x hx => (kw_pos (mul_pos ha (hpos x hx))).le) ht
  exact (kw_pos (mul_pos ha (hpos t ht))).trans_le this

omit hs in
private theorem kwSum_cont : ContinuousOn (kwSum ts) (Ioi 0) := by
  unfold kwSum
  induction ts with
  | nil => simpa using continuousOn_const
  | cons t l ih =>
    simp only [List.map_cons, List.sum_cons]
    refine ContinuousOn.add ?_ (ih fun x hx => hpos x (List.mem_cons_of_mem _ hx))
    intro a ha
    have h1 := (kw_deriv (mul_pos ha (hpos t List.mem_cons_self))).continuousAt
    exact (ContinuousAt.comp (f := fun a => a * t) h1 (by fun_prop)).continuousWithinAt

theorem kumProf_cont : ContinuousOn (kumProf ts) (Ioi 0) := by
  have h1 := kwSum_cont hpos
  have h2 : ContinuousOn (fun a => Real.log (kwSum ts a)) (Ioi 0) := h1.log fun a ha => (kwSum_pos hs hpos ha).ne'
  have h3 : ContinuousOn Real.log (Ioi 0) := Real.continuousOn_log.mono fun a ha => (ne_of_gt ha)
  unfold kumProf
  exact (((continuousOn_const.mul h3).sub (continuousOn_const.mul h2)).add h1).sub (by fun_prop)

omit hs in
/-- `n log a + ∑ w (a t) ≤ ∑ log (1 / t + a)` -/
theorem kw_up {a : ℝ} (ha : 0 < a) :
    ts.length * Real.log a + kwSum ts a ≤ (ts.map fun t => Real.log (1 / t + a)).sum := by
  have e : ts.length * Real.log a + kwSum ts a = (ts.map fun t => Real.log a + kw (a * t)).sum := by
    rw [lsum_add, lsum_const]
    rfl
  rw [e]
  refine lsum_le ts _ _ fun t ht => ?_
  have h0 := hpos t ht
  have hz : 0 < a * t := mul_pos ha h0
  unfold kw
  have h1 : Real.exp (-(a * t)) ≤ 1 / (1 + a * t) := by
    rw [Real.exp_neg, ← one_div]
    exact one_div_le_one_div_of_le (by linarith) (by linarith [Real.add_one_le_exp (a * t)])
  have h2 : a * t / (1 + a * t) ≤ 1 - Real.exp (-(a * t)) := by
    have : a * t / (1 + a * t) = 1 - 1 / (1 + a * t) := by field_simp; ring
    linarith
  have h3 := Real.log_le_log (by positivity) h2
  have h4 : Real.log (1 / t + a) = Real.log a - Real.log (a * t / (1 + a * t)) := by
    rw [← Real.log_div ha.ne' (by positivity)]
    congr 1
    field_simp
  linarith

private theorem kum_small : ∃ a0 : ℝ, 0 < a0 ∧ ∀ a, 0 < a → a < a0 → kumProf ts a < kumProf ts 1 := by
  have hn : (0 : ℝ) < ts.length := by exact_mod_cast List.length_pos_iff.2 hs
  obtain ⟨t, ht⟩ := List.exists_mem_of_ne_nil ts hs
  have ht0 := hpos t ht
  obtain ⟨K, hK⟩ : ∃ K, K = (ts.map fun t => Real.log (1 / t + 1)).sum := ⟨_, rfl⟩
  obtain ⟨L, hL⟩ : ∃ L, L = Real.exp ((K - kumProf ts 1 + 1) / ts.length) := ⟨_, rfl⟩
  have hL0 : 0 < L := hL ▸ Real.exp_pos _
  refine ⟨min 1 (Real.exp (-L) / t), by positivity, fun a ha h => ?_⟩
  have ha1 : a < 1 := h.trans_le (min_le_left _ _)
  have ha2 : a * t < Real.exp (-L) := by
    have := h.trans_le (min_le_right _ _)
    rwa [lt_div_iff₀ ht0] at this
  have h1 := kw_up hpos ha
  have h2 : (ts.map fun t => Real.log (1 / t + a)).sum ≤ K := by
    rw [hK]
    refine lsum_le ts _ _ fun u hu => ?_
    have := hpos u hu
    exact Real.log_le_log (by positivity) (by linarith)
  have h3 : L ≤ kwSum ts a := by
    refine le_trans ?_ (le_sum_of_mem (l := ts) (f := fun t => kw (a * t)) (fun x hx => (kw_pos (mul_pos ha (hpos x hx))).le) ht)
    unfold kw
    have hz : 0 < a * t := mul_pos ha ht0
    have h4 : 1 - Real.exp (-(a * t)) ≤ a * t := by linarith [Real.add_one_le_exp (-(a * t))]
    have h5 := Real.log_le_log (kw_base hz) h4
    have h6 := Real.log_le_log hz ha2.le
    rw [Real.log_exp] at h6
    linarith
  have h4 := Real.log_le_log hL0 h3
  rw [hL, Real.log_exp] at h4
  have h5 := mul_le_mul_of_nonneg_left h4 hn.le
  rw [mul_div_cancel₀ _ hn.ne'] at h5
  have h6 : 0 ≤ a * ts.sum := mul_nonneg ha.le (List.sum_nonneg fun x hx => (hpos x hx).le)
  have e : kumProf ts a = ts.length * Real.log a + kwSum ts a - ts.length * Real.log (kwSum ts a) - a * ts.sum := by
    unfold kumProf
    ring
  rw [e]
  linarith

private theorem kum_large (h2 : ∃ x ∈ ts, ∃ y ∈ ts, x ≠ y) :
    ∃ a1 : ℝ, ∀ a, a1 < a → 0 < a → kumProf ts a < kumProf ts 1 := by
  have hn : (0 : ℝ) < ts.length := by exact_mod_cast List.length_pos_iff.2 hs
  -- the smallest value
  obtain ⟨m, hm, hmin⟩ : ∃ m ∈ ts, ∀ t ∈ ts, m ≤ t := by
    obtain ⟨m, hm, h⟩ := Finset.exists_min_image ts.toFinset id (by
      obtain ⟨t, ht⟩ := List.exists_mem_of_ne_nil ts hs
      exact ⟨t, List.mem_toFinset.2 ht⟩)
    exact ⟨m, List.mem_toFinset.1 hm, fun t ht => h t (List.mem_toFinset.2 ht)⟩
  have hm0 := hpos m hm
  obtain ⟨d, hd⟩ : ∃ d, d = ts.sum - ts.length * m := ⟨_, rfl⟩
  have hd0 : 0 < d := by
    have h3 : ∃ x ∈ ts, m < x := by
      obtain ⟨x, hx, y, hy, hxy⟩ := h2
      rcases (hmin x hx).eq_or_lt with e | h
      · rcases (hmin y hy).eq_or_lt with e' | h'
        · exact absurd (e.symm.trans e') hxy
        · exact ⟨y, hy, h'⟩
      · exact ⟨x, hx, h⟩
    obtain ⟨x, hx, hlt⟩ := h3
    have := sum_lt_map (l := ts) (f := fun _ => m) (g := fun t => t) hmin hx hlt
    rw [lsum_const, List.map_id'] at this
    linarith
  obtain ⟨ε, hε⟩ : ∃ ε, ε = d / (2 * ts.length) := ⟨_, rfl⟩
  have hε0 : 0 < ε := by rw [hε]; positivity
  obtain ⟨C, hC⟩ : ∃ C, C = ts.length * (ε * (1 / m) - 1 - Real.log ε) := ⟨_, rfl⟩
  refine ⟨2 * (C - kumProf ts 1) / d, fun a h1 ha => ?_⟩
  have h3 := kw_up hpos ha
  have h4 : (ts.map fun t => Real.log (1 / t + a)).sum ≤ C + a * d / 2 := by
    have h5 : ∀ t ∈ ts, Real.log (1 / t + a) ≤ ε * (1 / m + a) - 1 - Real.log ε := by
      intro t ht
      have ht0 := hpos t ht
      have h6 : 1 / t + a ≤ 1 / m + a := by
        have := one_div_le_one_div_of_le hm0 (hmin t ht)
        linarith
      have h7 := Real.log_le_log (by positivity) h6
      have h8 := Real.log_le_sub_one_of_pos (x := ε * (1 / m + a)) (by positivity)
      rw [Real.log_mul hε0.ne' (by positivity)] at h8
      linarith
    refine (lsum_le ts _ _ h5).trans ?_
    rw [lsum_const, hC, hε]
    refine le_of_eq ?_
    field_simp
    ring
  have h5 : -(a * m) < Real.log (kwSum ts a) := by
    rw [Real.lt_log_iff_exp_lt (kwSum_pos hs hpos ha)]
    exact (kw_ge (mul_pos ha hm0)).trans_le
      (le_sum_of_mem (l := ts) (f := fun t => kw (a * t)) (fun x hx => (kw_pos (mul_pos ha (hpos x hx))).le) hm)
  have h6 := mul_lt_mul_of_pos_left h5 hn
  rw [div_lt_iff₀ hd0] at h1
  have e : kumProf ts a = ts.length * Real.log a + kwSum ts a - ts.length * Real.log (kwSum ts a) - a * ts.sum := by
    unfold kumProf
    ring
  have e2 : a * ts.sum = a * d + ts.length * (a * m) := by rw [hd]; ring
  rw [e, e2]
  linarith

theorem kumProf_exists (h2 : ∃ x ∈ ts, ∃ y ∈ ts, x ≠ y) : ∃ a : ℝ, 0 < a ∧ ∀ a', 0 < a' → kumProf ts a' ≤ kumProf ts a := by
  obtain ⟨a0, ha0, h0⟩ := kum_small hs hpos
  obtain ⟨a1, h1⟩ := kum_large hs hpos h2
  obtain ⟨a, ha, hm⟩ := exists_max (kumProf ts) (Ioi 0) (Icc a0 a1) 1 (mem_Ioi.2 one_pos) isCompact_Icc
    (fun a ha => ha0.trans_le ha.1) ((kumProf_cont hs hpos).mono fun a ha => ha0.trans_le ha.1) (by
      intro a ha hout
      by_cases h : a < a0
      · exact h0 a ha h
      · exact h1 a (by
          by_contra hc
          exact hout ⟨not_lt.1 h, not_lt.1 hc⟩) ha)
  exact ⟨a, ha, fun a' ha' => hm a' ha'⟩

omit hs hpos in
private theorem cs_list (l : List ℝ) (A B C : ℝ → ℝ) (h0 : ∀ t ∈ l, 0 ≤ A t ∧ 0 ≤ B t ∧ 0 ≤ C t) (h : ∀ t ∈ l, A t ^ 2 ≤ B t * C t) :
    (0 ≤ (l.map A).sum ∧ 0 ≤ (l.map B).sum ∧ 0 ≤ (l.map C).sum) ∧ (l.map A).sum ^ 2 ≤ (l.map B).sum * (l.map C).sum := by
  induction l with
  | nil => simp
  | cons t l ih =>
    obtain ⟨⟨iA, iB, iC⟩, ih⟩ := ih (fun x hx => h0 x (List.mem_cons_of_mem _ hx)) fun x hx => h x (List.mem_cons_of_mem _ hx)
    obtain ⟨a0, b0, c0⟩ := h0 t List.mem_cons_self
    have ha := h t List.mem_cons_self
    simp only [List.map_cons, List.sum_cons]
    generalize (l.map A).sum = X at *
    generalize (l.map B).sum = Y at *
    generalize (l.map C).sum = Z at *
    refine ⟨⟨by linarith, by linarith, by linarith⟩, ?_⟩
    have hsq : (2 * (A t * X)) ^ 2 ≤ (B t * Z + Y * C t) ^ 2 := by
      have h1 : A t ^ 2 * X ^ 2 ≤ (B t * C t) * (Y * Z) := mul_le_mul ha ih (by positivity) (by positivity)
      nlinarith [sq_nonneg (B t * Z - Y * C t)]
    have h2 := abs_le_of_sq_le_sq hsq (by positivity)
    nlinarith [le_of_abs_le h2]

private theorem kwSum_mid {a b : ℝ} (ha : 0 < a) (hb : 0 < b) :
    2 * Real.log (kwSum ts ((a + b) / 2)) ≤ Real.log (kwSum ts a) + Real.log (kwSum ts b) := by
  have hm : 0 < (a + b) / 2 := by positivity
  have h1 := (cs_list ts (fun t => kw ((a + b) / 2 * t)) (fun t => kw (a * t)) (fun t => kw (b * t))
    (fun t ht => ⟨(kw_pos (mul_pos hm (hpos t ht))).le, (kw_pos (mul_pos ha (hpos t ht))).le, (kw_pos (mul_pos hb (hpos t ht))).le⟩)
    (fun t ht => by
      have p1 := mul_pos ha (hpos t ht)
      have p2 := mul_pos hb (hpos t ht)
      have p3 := mul_pos hm (hpos t ht)
      have hc := kw_logconvex.2 (mem_Ioi.2 p1) (mem_Ioi.2 p2) (show (0 : ℝ) ≤ 1 / 2 by norm_num) (show (0 : ℝ) ≤ 1 / 2 by norm_num)
        (by norm_num)
      simp only [smul_eq_mul] at hc
      rw [show 1 / 2 * (a * t) + 1 / 2 * (b * t) = (a + b) / 2 * t by ring] at hc
      rw [← Real.log_le_log_iff (pow_pos (kw_pos p3) 2) (mul_pos (kw_pos p1) (kw_pos p2)), Real.log_pow,
        Real.log_mul (kw_pos p1).ne' (kw_pos p2).ne']
      push_cast
      linarith)).2
  have h2 := Real.log_le_log (pow_pos (kwSum_pos hs hpos hm) 2) h1
  change Real.log (kwSum ts _ ^ 2) ≤ Real.log (kwSum ts a * kwSum ts b) at h2
  rw [Real.log_pow, Real.log_mul (kwSum_pos hs hpos ha).ne' (kwSum_pos hs hpos hb).ne'] at h2
  exact_mod_cast h2

theorem kumProf_unique {a b : ℝ} (ha : 0 < a) (hb : 0 < b) (h1 : ∀ c, 0 < c → kumProf ts c ≤ kumProf ts a)
    (h2 : ∀ c, 0 < c → kumProf ts c ≤ kumProf ts b) : a = b := by
  by_contra hne
  have hn : (0 : ℝ) < ts.length := by exact_mod_cast List.length_pos_iff.2 hs
  have hm : 0 < (a + b) / 2 := by positivity
  have e : ∀ c, 0 < c → kumProf ts c + (ts.map fun t => Real.log t).sum =
      (ts.map fun t => Real.log (c * t) + kw (c * t)).sum - ts.length * Real.log (kwSum ts c) - c * ts.sum := by
    intro c hc
    have : (ts.map fun t => Real.log (c * t) + kw (c * t)).sum =
        ts.length * Real.log c + (ts.map fun t => Real.log t).sum + kwSum ts c := by
      rw [lsum_add]
      congr 1
      rw [List.map_congr_left (g := fun t => Real.log c + Real.log t) fun t ht => Real.log_mul hc.ne' (hpos t ht).ne', lsum_add,
        lsum_const]
    rw [this]
    unfold kumProf
    ring
  have hcv : ∀ t ∈ ts, 1 / 2 * (Real.log (a * t) + kw (a * t)) + 1 / 2 * (Real.log (b * t) + kw (b * t)) <
      Real.log ((a + b) / 2 * t) + kw ((a + b) / 2 * t) := by
    intro t ht
    have h0 := hpos t ht
    have hc := kw_concave.2 (mem_Ioi.2 (mul_pos ha h0)) (mem_Ioi.2 (mul_pos hb h0)) (fun h => hne (mul_right_cancel₀ h0.ne' h))
      (show (0 : ℝ) < 1 / 2 by norm_num) (show (0 : ℝ) < 1 / 2 by norm_num) (by norm_num)
    simp only [smul_eq_mul] at hc
    rwa [show 1 / 2 * (a * t) + 1 / 2 * (b * t) = (a + b) / 2 * t by ring] at hc
  obtain ⟨t, ht⟩ := List.exists_mem_of_ne_nil ts hs
  have h3 := sum_lt_map (fun t ht => (hcv t ht).le) ht (hcv t ht)
  rw [lsum_add, lsum_mul, lsum_mul] at h3
  have h4 := mul_le_mul_of_nonneg_left (kwSum_mid hs hpos ha hb) hn.le
  have e1 := e a ha
  have e2 := e b hb
  have e3 := e _ hm
  have l1 := h1 _ hm
  have l2 := h2 _ hm
  have e4 : (a + b) / 2 * ts.sum = (a * ts.sum + b * ts.sum) / 2 := by ring
  rw [e4] at e3
  linarith

/-- constant samples -/
theorem kumProf_unbounded {c : ℝ} (hc : ∀ t ∈ ts, t = c) (M : ℝ) :
    ∃ a, 1 ≤ a ∧ kwSum ts a ≤ ts.length ∧ M < kumProf ts a := by
  have hn : (0 : ℝ) < ts.length := by exact_mod_cast List.length_pos_iff.2 hs
  have hc0 : 0 < c := by
    obtain ⟨t, ht⟩ := List.exists_mem_of_ne_nil ts hs
    exact hc t ht ▸ hpos t ht
  obtain ⟨a, had⟩ : ∃ a, a = ts.length * Real.exp ((|M| + 1) / ts.length) + 1 / c := ⟨_, rfl⟩
  have hn1 : (1 : ℝ) ≤ ts.length := by exact_mod_cast List.length_pos_iff.2 hs
  have hE : 1 ≤ Real.exp ((|M| + 1) / ts.length) := Real.one_le_exp (by positivity)
  have hc1 : 0 < 1 / c := by positivity
  have ha1 : 1 ≤ a := by nlinarith
  have ha : 0 < a := by linarith
  have hac : 1 ≤ a * c := by
    have : 1 / c ≤ a := by
      rw [had]
      have : 0 ≤ ts.length * Real.exp ((|M| + 1) / ts.length) := by positivity
      linarith
    rwa [div_le_iff₀ hc0] at this
  have hW : kwSum ts a = ts.length * kw (a * c) := by
    unfold kwSum
    rw [List.map_congr_left (g := fun _ => kw (a * c)) fun t ht => by rw [hc t ht], lsum_const]
  have hT : ts.sum = ts.length * c := by
    have h1 := List.map_congr_left (f := fun t : ℝ => t) (g := fun _ => c) hc
    rw [List.map_id'] at h1
    have := lsum_const ts c
    rw [← this, ← h1]
  have hz := mul_pos ha hc0
  have hk := kw_pos hz
  have hb := kw_base hz
  have h2 : kw (a * c) ≤ Real.exp (-(a * c)) / (1 - Real.exp (-(a * c))) := by
    have h3 := Real.one_sub_inv_le_log_of_pos hb
    unfold kw
    have : Real.exp (-(a * c)) / (1 - Real.exp (-(a * c))) = (1 - Real.exp (-(a * c)))⁻¹ - 1 := by
      field_simp
      ring
    rw [this]
    linarith
  refine ⟨a, ha1, ?_, ?_⟩
  · rw [hW]
    refine mul_le_of_le_one_right hn.le (h2.trans ?_)
    rw [div_le_one hb]
    have h4 := Real.add_one_le_exp (a * c)
    have h5 : Real.exp (a * c) * Real.exp (-(a * c)) = 1 := by rw [← Real.exp_add]; simp
    have h6 := Real.exp_pos (-(a * c))
    nlinarith
  have h1 : Real.log (kw (a * c)) ≤ -(a * c) + kw (a * c) := by
    have h3 := Real.log_le_log hk h2
    rw [Real.log_div (Real.exp_pos _).ne' hb.ne', Real.log_exp] at h3
    have : kw (a * c) = -Real.log (1 - Real.exp (-(a * c))) := rfl
    linarith
  have h6 := mul_le_mul_of_nonneg_left h1 hn.le
  unfold kumProf
  have h4 : Real.log ts.length + (|M| + 1) / ts.length ≤ Real.log a := by
    rw [← Real.log_exp ((|M| + 1) / ts.length), ← Real.log_mul hn.ne' (Real.exp_pos _).ne']
    exact Real.log_le_log (by positivity) (by rw [had]; linarith)
  have h5 := mul_le_mul_of_nonneg_left h4 hn.le
  have h3 : ts.length * ((|M| + 1) / ts.length) = |M| + 1 := by field_simp
  rw [mul_add, h3] at h5
  rw [hW, hT, Real.log_mul hn.ne' hk.ne']
  have := le_abs_self M
  nlinarith

end Sample

/-! ### the likelihood -/

/-- the log-likelihood -/
noncomputable def kumObj (ts : List ℝ) (a b : ℝ) : ℝ :=
  ts.length * Real.log a + ts.length * Real.log b - (a - 1) * ts.sum - (b - 1) * kwSum ts a

theorem kum_pos {a b : ℝ} (ha : 0 < a) (hb : 0 < b) {x : ℝ} (h0 : 0 < x) (h1 : x < 1) : 0 < kumaraswamyPdf a b x := by
  unfold kumaraswamyPdf
  rw [if_pos ⟨h0, h1⟩]
  have : x ^ a < 1 := Real.rpow_lt_one h0.le h1 ha
  have h2 : 0 < 1 - x ^ a := by linarith
  positivity

theorem kum_log (s : List ℝ) (hin : ∀ x ∈ s, 0 < x ∧ x < 1) {a b : ℝ} (ha : 0 < a) (hb : 0 < b) :
    Real.log (lik (kumaraswamyPdf a b) s) = kumObj (s.map fun x => -Real.log x) a b := by
  rw [log_lik' fun x hx => kum_pos ha hb (hin x hx).1 (hin x hx).2]
  have h1 : ∀ x ∈ s, Real.log (kumaraswamyPdf a b x) =
      (Real.log a + Real.log b) + (-(a - 1)) * (-Real.log x) + (-(b - 1)) * kw (a * -Real.log x) := by
    intro x hx
    obtain ⟨h0, h1⟩ := hin x hx
    have h2 : x ^ a < 1 := Real.rpow_lt_one h0.le h1 ha
    have h3 : 0 < 1 - x ^ a := by linarith
    have e : Real.exp (-(a * -Real.log x)) = x ^ a := by
      rw [Real.rpow_def_of_pos h0]
      congr 1
      ring
    unfold kumaraswamyPdf kw
    rw [if_pos ⟨h0, h1⟩, Real.log_mul (by positivity) (by positivity), Real.log_mul (by positivity) (by positivity),
      Real.log_mul ha.ne' hb.ne', Real.log_rpow h0, Real.log_rpow h3, e]
    ring
  rw [List.map_congr_left h1, lsum_add, lsum_add, lsum_const, lsum_mul, lsum_mul]
  unfold kumObj kwSum
  rw [List.map_map, List.length_map]
  simp only [Function.comp_def]
  ring

/-- the best `b` -/
theorem kum_b (ts : List ℝ) (hs : ts ≠ []) (hpos : ∀ t ∈ ts, 0 < t) {a b : ℝ} (ha : 0 < a) (hb : 0 < b) :
    kumObj ts a b ≤ kumObj ts a (ts.length / kwSum ts a) ∧
      (kumObj ts a (ts.length / kwSum ts a) ≤ kumObj ts a b → b = ts.length / kwSum ts a) := by
  have hn : (0 : ℝ) < ts.length := by exact_mod_cast List.length_pos_iff.2 hs
  have hW := kwSum_pos hs hpos ha
  have key : kumObj ts a (ts.length / kwSum ts a) - kumObj ts a b =
      ts.length * (b * kwSum ts a / ts.length - 1 - Real.log (b * kwSum ts a / ts.length)) := by
    unfold kumObj
    rw [Real.log_div hn.ne' hW.ne', Real.log_div (by positivity) hn.ne', Real.log_mul hb.ne' hW.ne']
    field_simp
    ring
  have hp : 0 < b * kwSum ts a / ts.length := by positivity
  constructor
  · have := mul_nonneg hn.le (sub_nonneg.2 (Real.log_le_sub_one_of_pos hp))
    linarith
  · intro h
    by_contra hne
    have h1 : b * kwSum ts a / ts.length ≠ 1 := by
      intro h2
      apply hne
      field_simp at h2 ⊢
      linarith
    have := mul_pos hn (sub_pos.2 (Real.log_lt_sub_one_of_pos hp h1))
    linarith

theorem kum_prof (ts : List ℝ) (hs : ts ≠ []) (hpos : ∀ t ∈ ts, 0 < t) {a : ℝ} (ha : 0 < a) :
    kumObj ts a (ts.length / kwSum ts a) = kumProf ts a + (ts.length * Real.log ts.length - ts.length + ts.sum) := by
  have hn : (0 : ℝ) < ts.length := by exact_mod_cast List.length_pos_iff.2 hs
  have hW := kwSum_pos hs hpos ha
  unfold kumObj kumProf
  rw [Real.log_div hn.ne' hW.ne']
  field_simp
  ring

end Verif.Ml
