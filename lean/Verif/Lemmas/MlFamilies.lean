import Verif.Lemmas.MlReduce
import Mathlib.Tactic

/-!
# The families of `MlFam`, one by one
-/

namespace Verif.Ml
open Set Verif.Spec

/-! ## Location and scale -/

theorem red_gumbel (s : List ℝ) : ∃ C, Red .gumbel s (fun p => 0 < p.1) (fun p => MlFam.gumbel.Good p.1 p.2)
    (obj φGumbel (s.map id)) (fun p => (1 / p.2, -p.1 / p.2)) (fun p => (-p.2 / p.1, 1 / p.1)) 1 C := by
  refine ⟨_, red_convex (c := fun _ => 0) ?_ ?_ ?_⟩
  · intro p hp
    have hp : 0 < p.2 := hp
    refine ⟨by positivity, fun x _ => ?_⟩
    have h1 : 1 / p.2 * id x + -p.1 / p.2 = (x - p.1) / p.2 := by simp only [id]; ring
    simp only [MlFam.pdf, gumbelPdf, h1, φGumbel, add_zero]
    rw [Real.exp_sub, Real.exp_log (by positivity), Real.exp_neg]
    ring
  · intro p hp
    refine ⟨show 0 < 1 / p.1 by positivity, Prod.ext ?_ ?_⟩
    · simp
    · simp only
      field_simp
  · intro p hp
    have hp : 0 < p.2 := hp
    refine Prod.ext ?_ ?_
    · simp only
      field_simp
    · simp

theorem red_logistic (s : List ℝ) : ∃ C, Red .logistic s (fun p => 0 < p.1) (fun p => MlFam.logistic.Good p.1 p.2)
    (obj φLogistic (s.map id)) (fun p => (1 / p.2, -p.1 / p.2)) (fun p => (-p.2 / p.1, 1 / p.1)) 1 C := by
  refine ⟨_, red_convex (c := fun _ => 0) ?_ ?_ ?_⟩
  · intro p hp
    have hp : 0 < p.2 := hp
    refine ⟨by positivity, fun x _ => ?_⟩
    have h1 : 1 / p.2 * id x + -p.1 / p.2 = (x - p.1) / p.2 := by simp only [id]; ring
    simp only [MlFam.pdf, logisticPdf, h1, φLogistic, add_zero]
    set z := (x - p.1) / p.2
    have h2 : 0 < 1 + Real.exp (-z) := by positivity
    rw [Real.exp_sub, Real.exp_log (by positivity), Real.exp_add, show 2 * Real.log (1 + Real.exp (-z)) =
      Real.log (1 + Real.exp (-z)) + Real.log (1 + Real.exp (-z)) by ring, Real.exp_add, Real.exp_log h2]
    have h3 : Real.exp z = (Real.exp (-z))⁻¹ := by rw [Real.exp_neg, inv_inv]
    rw [h3]
    have h4 := Real.exp_pos (-z)
    field_simp
  · intro p hp
    refine ⟨show 0 < 1 / p.1 by positivity, Prod.ext ?_ ?_⟩
    · simp
    · simp only
      field_simp
  · intro p hp
    have hp : 0 < p.2 := hp
    refine Prod.ext ?_ ?_
    · simp only
      field_simp
    · simp

theorem red_moyal (s : List ℝ) : ∃ C, Red .moyal s (fun p => 0 < p.1) (fun p => MlFam.moyal.Good p.1 p.2)
    (obj φMoyal (s.map id)) (fun p => (1 / p.2, -p.1 / p.2)) (fun p => (-p.2 / p.1, 1 / p.1)) 1 C := by
  refine ⟨_, red_convex (c := fun _ => -Real.log (√(2 * Real.pi))) ?_ ?_ ?_⟩
  · intro p hp
    have hp : 0 < p.2 := hp
    refine ⟨by positivity, fun x _ => ?_⟩
    have h1 : 1 / p.2 * id x + -p.1 / p.2 = (x - p.1) / p.2 := by simp only [id]; ring
    simp only [MlFam.pdf, moyalPdf, h1, φMoyal]
    have h2 : 0 < √(2 * Real.pi) := Real.sqrt_pos.2 (by positivity)
    rw [Real.exp_add, Real.exp_sub, Real.exp_log (by positivity), Real.exp_neg (Real.log _), Real.exp_log h2, neg_mul,
      Real.exp_neg (1 / 2 * _)]
    field_simp
  · intro p hp
    refine ⟨show 0 < 1 / p.1 by positivity, Prod.ext ?_ ?_⟩
    · simp
    · simp only
      field_simp
  · intro p hp
    have hp : 0 < p.2 := hp
    refine Prod.ext ?_ ?_
    · simp only
      field_simp
    · simp

theorem red_weibull (s : List ℝ) (hs : ∀ x ∈ s, 0 < x) : ∃ C, Red .weibull s (fun p => 0 < p.1)
    (fun p => MlFam.weibull.Good p.1 p.2)
    (obj φWeibull (s.map Real.log)) (fun p => (p.1, -(p.1 * Real.log p.2))) (fun p => (p.1, Real.exp (-p.2 / p.1))) 1 C := by
  refine ⟨_, red_convex (c := fun x => -Real.log x) ?_ ?_ ?_⟩
  · rintro p ⟨hp1, hp2⟩
    refine ⟨hp1, fun x hx => ?_⟩
    have hx := hs x hx
    have h1 : p.1 * Real.log x + -(p.1 * Real.log p.2) = Real.log (x / p.2) * p.1 := by
      rw [Real.log_div hx.ne' hp2.ne']; ring
    have h2 : (x / p.2) ^ p.1 = Real.exp (Real.log (x / p.2) * p.1) := Real.rpow_def_of_pos (by positivity) _
    simp only [MlFam.pdf, weibullPdf, h1, φWeibull]
    rw [if_neg (not_le.2 hx), Real.rpow_sub_one (by positivity), h2]
    set z := Real.log (x / p.2) * p.1
    rw [Real.exp_add, Real.exp_sub, Real.exp_log hp1, Real.exp_neg (Real.log x), Real.exp_log hx, Real.exp_sub, Real.exp_neg]
    have := Real.exp_pos z
    have := Real.exp_pos (Real.exp z)
    field_simp
  · intro p hp
    refine ⟨⟨hp, Real.exp_pos _⟩, Prod.ext rfl ?_⟩
    simp only [Real.log_exp]
    field_simp
  · rintro p ⟨hp1, hp2⟩
    refine Prod.ext rfl ?_
    simp only
    rw [show -(-(p.1 * Real.log p.2)) / p.1 = Real.log p.2 by field_simp, Real.exp_log hp2]

theorem red_logLogistic (s : List ℝ) (hs : ∀ x ∈ s, 0 < x) : ∃ C, Red .logLogistic s (fun p => 0 < p.1)
    (fun p => MlFam.logLogistic.Good p.1 p.2)
    (obj φLogistic (s.map Real.log)) (fun p => (p.2, -(p.2 * Real.log p.1))) (fun p => (Real.exp (-p.2 / p.1), p.1)) 1 C := by
  refine ⟨_, red_convex (c := fun x => -Real.log x) ?_ ?_ ?_⟩
  · rintro p ⟨hp1, hp2⟩
    refine ⟨hp2, fun x hx => ?_⟩
    have hx := hs x hx
    have h1 : p.2 * Real.log x + -(p.2 * Real.log p.1) = Real.log (x / p.1) * p.2 := by
      rw [Real.log_div hx.ne' hp1.ne']; ring
    have h2 : (x / p.1) ^ p.2 = Real.exp (Real.log (x / p.1) * p.2) := Real.rpow_def_of_pos (by positivity) _
    simp only [MlFam.pdf, logLogisticPdf, h1, φLogistic]
    rw [if_pos hx, Real.rpow_sub_one (by positivity), h2]
    set z := Real.log (x / p.1) * p.2
    have h3 : 0 < 1 + Real.exp (-z) := by positivity
    rw [Real.exp_add, Real.exp_sub, Real.exp_log hp2, Real.exp_neg (Real.log x), Real.exp_log hx, Real.exp_add,
      show 2 * Real.log (1 + Real.exp (-z)) =
      Real.log (1 + Real.exp (-z)) + Real.log (1 + Real.exp (-z)) by ring, Real.exp_add, Real.exp_log h3, Real.exp_neg]
    have := Real.exp_pos z
    field_simp
    ring
  · intro p hp
    refine ⟨⟨Real.exp_pos _, hp⟩, Prod.ext rfl ?_⟩
    simp only [Real.log_exp]
    field_simp
  · rintro p ⟨hp1, hp2⟩
    refine Prod.ext ?_ rfl
    simp only
    rw [show -(-(p.2 * Real.log p.1)) / p.2 = Real.log p.1 by field_simp, Real.exp_log hp1]

/-! ## Exponential families -/

theorem mean_log_lt {s : List ℝ} (hs : ∀ x ∈ s, 0 < x) {x y : ℝ} (hx : x ∈ s) (hy : y ∈ s) (hxy : x ≠ y) :
    0 < s.sum / s.length ∧ (s.map Real.log).sum / s.length < Real.log (s.sum / s.length) := by
  have hne : s ≠ [] := List.ne_nil_of_mem hx
  have hn : (0 : ℝ) < s.length := by exact_mod_cast List.length_pos_iff.2 hne
  have hsum : 0 < s.sum := List.sum_pos s hs hne
  set m := s.sum / s.length with hm
  have hm0 : 0 < m := by positivity
  refine ⟨hm0, ?_⟩
  obtain ⟨z, hz, hzm⟩ : ∃ z ∈ s, z ≠ m := by
    by_cases h : x = m
    · exact ⟨y, hy, fun h' => hxy (h.trans h'.symm)⟩
    · exact ⟨x, hx, h⟩
  have h1 : (s.map fun x => Real.log x).sum < (s.map fun x => Real.log m + (x / m - 1)).sum := by
    refine sum_lt_map (fun w hw => ?_) hz ?_
    · have := Real.log_le_sub_one_of_pos (div_pos (hs w hw) hm0)
      rw [Real.log_div (hs w hw).ne' hm0.ne'] at this
      linarith
    · have := Real.log_lt_sub_one_of_pos (div_pos (hs z hz) hm0) (by
        intro h
        rw [div_eq_one_iff_eq hm0.ne'] at h
        exact hzm h)
      rw [Real.log_div (hs z hz).ne' hm0.ne'] at this
      linarith
  have h2 : ∀ l : List ℝ, (l.map fun x => Real.log m + (x / m - 1)).sum = l.length * Real.log m + (l.sum / m - l.length) := by
    intro l
    induction l with
    | nil => simp
    | cons a t ih =>
      simp only [List.map_cons, List.sum_cons, List.length_cons, Nat.cast_add, Nat.cast_one] at ih ⊢
      rw [ih]
      ring
  rw [h2] at h1
  have h3 : s.sum / m = s.length := by
    rw [hm]
    field_simp
  rw [h3, sub_self, add_zero] at h1
  rw [div_lt_iff₀ hn]
  linarith

theorem sum_neg_map (l : List ℝ) : (l.map fun x => -x).sum = -l.sum := by
  induction l with
  | nil => simp
  | cons a t ih =>
    simp only [List.map_cons, List.sum_cons, ih]
    ring

theorem sum_one_sub (l : List ℝ) : (l.map fun x => 1 - x).sum = l.length - l.sum := by
  induction l with
  | nil => simp
  | cons a t ih =>
    simp only [List.map_cons, List.sum_cons, List.length_cons, Nat.cast_add, Nat.cast_one, ih]
    ring

theorem gamma_exists {s : List ℝ} (hs : ∀ x ∈ s, 0 < x) {x y : ℝ} (hx : x ∈ s) (hy : y ∈ s) (hxy : x ≠ y) :
    ∃ p : ℝ × ℝ, (0 < p.1 ∧ 0 < p.2) ∧ ∀ q : ℝ × ℝ, 0 < q.1 ∧ 0 < q.2 →
      expObj (fun a b => Real.Gamma a / b ^ a) ((s.map Real.log).sum / s.length) ((s.map fun x => -x).sum / s.length) q ≤
      expObj (fun a b => Real.Gamma a / b ^ a) ((s.map Real.log).sum / s.length) ((s.map fun x => -x).sum / s.length) p := by
  obtain ⟨hm, hlt⟩ := mean_log_lt hs hx hy hxy
  set L := (s.map Real.log).sum / s.length
  have hL2 : (s.map fun x => -x).sum / s.length = -(s.sum / s.length) := by rw [sum_neg_map]; ring
  rw [hL2]
  set m := s.sum / s.length
  have h1 : Real.exp L < m := by
    have := Real.exp_lt_exp.2 hlt
    rwa [Real.exp_log hm] at this
  have h0 := Real.exp_pos L
  obtain ⟨u, hu1, hu2⟩ := exists_between h1
  obtain ⟨v, hv1, hv2⟩ := exists_between hu2
  have hu0 : 0 < u := h0.trans hu1
  have hLu : L < Real.log u := by
    have := Real.log_lt_log h0 hu1
    rwa [Real.log_exp] at this
  refine gammaFam.exists (δ := min (Real.log u - L) (m - v)) hv1 (lt_min (by linarith) (by linarith)) ?_ ?_ ?_
  · exact fun z hz => hu0.trans_le hz.1
  · intro z hz
    have := Real.log_le_log hu0 hz.1
    have := min_le_left (Real.log u - L) (m - v)
    linarith
  · intro z hz
    have := min_le_right (Real.log u - L) (m - v)
    have := hz.2
    linarith

theorem beta_exists {s : List ℝ} (hs : ∀ x ∈ s, 0 < x ∧ x < 1) {x y : ℝ} (hx : x ∈ s) (hy : y ∈ s) (hxy : x ≠ y) :
    ∃ p : ℝ × ℝ, (0 < p.1 ∧ 0 < p.2) ∧ ∀ q : ℝ × ℝ, 0 < q.1 ∧ 0 < q.2 →
      expObj (fun a b => ProbabilityTheory.beta a b) ((s.map Real.log).sum / s.length)
        ((s.map fun x => Real.log (1 - x)).sum / s.length) q ≤
      expObj (fun a b => ProbabilityTheory.beta a b) ((s.map Real.log).sum / s.length)
        ((s.map fun x => Real.log (1 - x)).sum / s.length) p := by
  have hne : s ≠ [] := List.ne_nil_of_mem hx
  have hn : (0 : ℝ) < s.length := by exact_mod_cast List.length_pos_iff.2 hne
  obtain ⟨hm, hlt⟩ := mean_log_lt (fun x hx => (hs x hx).1) hx hy hxy
  obtain ⟨hm', hlt'⟩ := mean_log_lt (s := s.map fun x => 1 - x) (by
    intro z hz
    obtain ⟨w, hw, rfl⟩ := List.mem_map.1 hz
    exact sub_pos.2 (hs w hw).2) (List.mem_map_of_mem (f := fun x => 1 - x) hx) (List.mem_map_of_mem (f := fun x => 1 - x) hy)
    (fun h => hxy (by linarith))
  rw [List.length_map, sum_one_sub] at hm' hlt'
  rw [List.map_map, show (Real.log ∘ fun x : ℝ => 1 - x) = fun x => Real.log (1 - x) from rfl] at hlt'
  set L := (s.map Real.log).sum / s.length
  set L' := (s.map fun x => Real.log (1 - x)).sum / s.length
  set m := s.sum / s.length with hmd
  have hmm : ((s.length : ℝ) - s.sum) / s.length = 1 - m := by rw [hmd]; field_simp
  rw [hmm] at hm' hlt'
  have h1 : Real.exp L < m := by
    have := Real.exp_lt_exp.2 hlt
    rwa [Real.exp_log hm] at this
  have h1' : Real.exp L' < 1 - m := by
    have := Real.exp_lt_exp.2 hlt'
    rwa [Real.exp_log hm'] at this
  have h0 := Real.exp_pos L
  have h0' := Real.exp_pos L'
  obtain ⟨u, hu1, hu2⟩ := exists_between (show Real.exp L < 1 - Real.exp L' by linarith)
  obtain ⟨v, hv1, hv2⟩ := exists_between hu2
  have hu0 : 0 < u := h0.trans hu1
  have hLu : L < Real.log u := by
    have := Real.log_lt_log h0 hu1
    rwa [Real.log_exp] at this
  have hLv : L' < Real.log (1 - v) := by
    have := Real.log_lt_log h0' (show Real.exp L' < 1 - v by linarith)
    rwa [Real.log_exp] at this
  refine betaFam.exists (δ := min (Real.log u - L) (Real.log (1 - v) - L')) hv1 (lt_min (by linarith) (by linarith)) ?_ ?_ ?_
  · exact fun z hz => ⟨hu0.trans_le hz.1, by have := hz.2; linarith⟩
  · intro z hz
    have := Real.log_le_log hu0 hz.1
    have := min_le_left (Real.log u - L) (Real.log (1 - v) - L')
    linarith
  · intro z hz
    have h2 : Real.log (1 - v) ≤ Real.log (1 - z) := Real.log_le_log (by linarith) (by have := hz.2; linarith)
    have := min_le_right (Real.log u - L) (Real.log (1 - v) - L')
    linarith

theorem mean_const {s : List ℝ} (hs : s ≠ []) {c : ℝ} (hc : ∀ x ∈ s, x = c) (f : ℝ → ℝ) : (s.map f).sum / s.length = f c := by
  have hn : (s.length : ℝ) ≠ 0 := by exact_mod_cast (List.length_pos_iff.2 hs).ne'
  have h : s.map f = s.map fun _ => f c := List.map_congr_left fun x hx => by rw [hc x hx]
  rw [h, List.map_const', List.sum_replicate, nsmul_eq_mul]
  field_simp

theorem gamma_unbounded {c : ℝ} (hc : 0 < c) (M : ℝ) : ∃ p : ℝ × ℝ, (0 < p.1 ∧ 0 < p.2) ∧
    M < expObj (fun a b => Real.Gamma a / b ^ a) (Real.log c) (-c) p := by
  refine gammaFam.unbounded (d := 1) (e := 1 / c) (c := c) one_pos (by positivity) ?_ M
  intro x hx hxc
  have hx : 0 < x := hx
  have := Real.log_lt_sub_one_of_pos (div_pos hx hc) (by
    intro h
    rw [div_eq_one_iff_eq hc.ne'] at h
    exact hxc h)
  rw [Real.log_div hx.ne' hc.ne'] at this
  have h2 : 1 / c * (-x - -c) = -(x / c - 1) := by field_simp; ring
  rw [h2]
  linarith

theorem beta_unbounded {c : ℝ} (hc : 0 < c) (hc1 : c < 1) (M : ℝ) : ∃ p : ℝ × ℝ, (0 < p.1 ∧ 0 < p.2) ∧
    M < expObj (fun a b => ProbabilityTheory.beta a b) (Real.log c) (Real.log (1 - c)) p := by
  have hc' : 0 < 1 - c := by linarith
  refine betaFam.unbounded (d := c) (e := 1 - c) (c := c) hc hc' ?_ M
  intro x hx hxc
  have hx0 : 0 < x := hx.1
  have hx1 : 0 < 1 - x := sub_pos.2 hx.2
  have h1 := Real.log_lt_sub_one_of_pos (div_pos hx0 hc) (by
    intro h
    rw [div_eq_one_iff_eq hc.ne'] at h
    exact hxc h)
  rw [Real.log_div hx0.ne' hc.ne'] at h1
  have h2 := Real.log_le_sub_one_of_pos (div_pos hx1 hc')
  rw [Real.log_div hx1.ne' hc'.ne'] at h2
  have h3 := mul_lt_mul_of_pos_left h1 hc
  have h4 := mul_le_mul_of_nonneg_left h2 hc'.le
  have h5 : c * (x / c - 1) = x - c := by field_simp
  have h6 : (1 - c) * ((1 - x) / (1 - c) - 1) = c - x := by field_simp; ring
  rw [h5] at h3
  rw [h6] at h4
  linarith

theorem red_gamma (s : List ℝ) (hs : s ≠ []) (hp : ∀ x ∈ s, 0 < x) : ∃ C, Red .gamma s (fun p => 0 < p.1 ∧ 0 < p.2)
    (fun p => MlFam.gamma.Good p.1 p.2) (expObj (fun a b => Real.Gamma a / b ^ a) ((s.map fun x => Real.log x).sum / s.length)
      ((s.map fun x => -x).sum / s.length)) id id s.length C := by
  refine ⟨_, red_exp (t1 := Real.log) (t2 := fun x => -x) (ρ := fun x => x) (c := fun x => -Real.log x) hs
    (fun a b => Iff.rfl) fun a b ha hb => ⟨?_, fun x hx => ?_⟩⟩
  · have := Real.Gamma_pos_of_pos ha
    positivity
  · have hx := hp x hx
    have := Real.Gamma_pos_of_pos ha
    have hba := Real.rpow_pos_of_pos hb a
    simp only [MlFam.pdf, gammaPdf]
    rw [if_pos hx, Real.rpow_sub_one hx.ne', Real.exp_add, Real.exp_add, Real.exp_neg (Real.log x), Real.exp_log hx,
      Real.rpow_def_of_pos hx, mul_comm a, mul_neg]
    field_simp

theorem red_inverseGamma (s : List ℝ) (hs : s ≠ []) (hp : ∀ x ∈ s, 0 < x) : ∃ C, Red .inverseGamma s
    (fun p => 0 < p.1 ∧ 0 < p.2) (fun p => MlFam.inverseGamma.Good p.1 p.2) (expObj (fun a b => Real.Gamma a / b ^ a)
      ((s.map fun x => Real.log x⁻¹).sum / s.length) ((s.map fun x => -x⁻¹).sum / s.length)) id id s.length C := by
  refine ⟨_, red_exp (t1 := Real.log) (t2 := fun x => -x) (ρ := fun x => x⁻¹) (c := fun x => -Real.log x) hs
    (fun a b => Iff.rfl) fun a b ha hb => ⟨?_, fun x hx => ?_⟩⟩
  · have := Real.Gamma_pos_of_pos ha
    positivity
  · have hx := hp x hx
    have := Real.Gamma_pos_of_pos ha
    have hba := Real.rpow_pos_of_pos hb a
    simp only [MlFam.pdf, inverseGammaPdf]
    rw [if_pos hx, Real.rpow_sub_one hx.ne', Real.exp_add, Real.exp_add, Real.exp_neg (Real.log x), Real.exp_log hx,
      Real.rpow_def_of_pos hx, Real.log_inv, show Real.log x * -a = a * -Real.log x by ring,
      show -b / x = b * -x⁻¹ by ring]
    field_simp

theorem red_beta (s : List ℝ) (hs : s ≠ []) (hp : ∀ x ∈ s, 0 < x ∧ x < 1) : ∃ C, Red .beta s (fun p => 0 < p.1 ∧ 0 < p.2)
    (fun p => MlFam.beta.Good p.1 p.2) (expObj (fun a b => ProbabilityTheory.beta a b) ((s.map fun x => Real.log x).sum / s.length)
      ((s.map fun x => Real.log (1 - x)).sum / s.length)) id id s.length C := by
  refine ⟨_, red_exp (t1 := Real.log) (t2 := fun x => Real.log (1 - x)) (ρ := fun x => x)
    (c := fun x => -(Real.log x + Real.log (1 - x))) hs (fun a b => Iff.rfl) fun a b ha hb => ⟨ProbabilityTheory.beta_pos ha hb, fun x hx => ?_⟩⟩
  have hx0 := (hp x hx).1
  have hx1 : 0 < 1 - x := sub_pos.2 (hp x hx).2
  have := ProbabilityTheory.beta_pos ha hb
  simp only [MlFam.pdf, betaPdf]
  rw [if_pos (hp x hx), Real.rpow_sub_one hx0.ne', Real.rpow_sub_one hx1.ne', Real.exp_add, Real.exp_add,
    Real.exp_neg (_ + _), Real.exp_add, Real.exp_log hx0, Real.exp_log hx1,
    Real.rpow_def_of_pos hx0, Real.rpow_def_of_pos hx1, mul_comm a, mul_comm b]
  field_simp

/-! ## Wald and Pareto -/

theorem red_wald (s : List ℝ) (hs : s ≠ []) (hp : ∀ x ∈ s, 0 < x) : ∃ C, Red .wald s (fun p => 0 < p.1 ∧ 0 < p.2)
    (fun p => MlFam.wald.Good p.1 p.2)
    (rateObj ((s.map fun x => x⁻¹).sum / s.length - (s.sum / s.length)⁻¹)
      (fun μ => (s.sum / s.length - μ) ^ 2 / (μ ^ 2 * (s.sum / s.length))))
    Prod.swap Prod.swap (s.length / 2) C := by
  have hn : (0 : ℝ) < s.length := by exact_mod_cast List.length_pos_iff.2 hs
  have hsum : 0 < s.sum := List.sum_pos s hp hs
  have hpos : ∀ p : ℝ × ℝ, 0 < p.1 → 0 < p.2 → ∀ x ∈ s, 0 < waldPdf p.1 p.2 x := by
    intro p h1 h2 x hx
    have hx := hp x hx
    unfold waldPdf
    rw [if_pos hx]
    have := Real.rpow_pos_of_pos (show 0 < p.2 / (2 * Real.pi) by positivity) (1 / 2)
    have := Real.rpow_pos_of_pos hx (-3 / 2)
    positivity
  refine ⟨(s.map fun x => -(1 / 2) * Real.log (2 * Real.pi) - 3 / 2 * Real.log x).sum, ?_⟩
  refine { hK := by positivity, good := fun _ h => h, pos := ?_, val := ?_, zero := fun p h h' => absurd h h', tU := ?_, rA := ?_,
           rt := fun p _ => Prod.swap_swap p, tr := fun p _ => Prod.swap_swap p }
  · rintro p ⟨h1, h2⟩
    exact lik_pos (hpos p h1 h2)
  · rintro p ⟨h1, h2⟩
    rw [log_lik (f := MlFam.wald.pdf p.1 p.2) (hpos p h1 h2)]
    have h3 : (s.map fun x => Real.log (MlFam.wald.pdf p.1 p.2 x)) = s.map fun x => 1 / 2 * Real.log p.2 -
        1 / 2 * p.2 * (x / p.1 ^ 2 - 2 / p.1 + x⁻¹) + (-(1 / 2) * Real.log (2 * Real.pi) - 3 / 2 * Real.log x) := by
      refine List.map_congr_left fun x hx => ?_
      have hx := hp x hx
      have ha := Real.rpow_pos_of_pos (show 0 < p.2 / (2 * Real.pi) by positivity) (1 / 2)
      have hb := Real.rpow_pos_of_pos hx (-3 / 2)
      simp only [MlFam.pdf, waldPdf]
      rw [if_pos hx, Real.log_mul (by positivity) (Real.exp_pos _).ne', Real.log_mul ha.ne' hb.ne', Real.log_exp,
        Real.log_rpow (by positivity), Real.log_rpow hx, Real.log_div h2.ne' (by positivity)]
      field_simp
      ring
    rw [h3]
    have h4 : ∀ l : List ℝ, (l.map fun x => 1 / 2 * Real.log p.2 -
        1 / 2 * p.2 * (x / p.1 ^ 2 - 2 / p.1 + x⁻¹) + (-(1 / 2) * Real.log (2 * Real.pi) - 3 / 2 * Real.log x)).sum =
        l.length * (1 / 2 * Real.log p.2) - 1 / 2 * p.2 * (l.sum / p.1 ^ 2 - l.length * (2 / p.1) + (l.map fun x => x⁻¹).sum) +
        (l.map fun x => -(1 / 2) * Real.log (2 * Real.pi) - 3 / 2 * Real.log x).sum := by
      intro l
      induction l with
      | nil => simp
      | cons a t ih =>
        simp only [List.map_cons, List.sum_cons, List.length_cons, Nat.cast_add, Nat.cast_one] at ih ⊢
        rw [ih]
        ring
    rw [h4]
    unfold rateObj
    simp only [Prod.fst_swap, Prod.snd_swap]
    generalize (s.map fun x => -(1 / 2) * Real.log (2 * Real.pi) - 3 / 2 * Real.log x).sum = C
    generalize (s.map fun x => x⁻¹).sum = I
    congr 1
    field_simp
    ring
  · rintro p ⟨h1, h2⟩
    exact ⟨h2, h1⟩
  · rintro p ⟨h1, h2⟩
    exact ⟨h2, h1⟩

theorem inv_mean_lt {s : List ℝ} (hs : ∀ x ∈ s, 0 < x) {x y : ℝ} (hx : x ∈ s) (hy : y ∈ s) (hxy : x ≠ y) :
    0 < (s.map fun x => x⁻¹).sum / s.length - (s.sum / s.length)⁻¹ := by
  have hne : s ≠ [] := List.ne_nil_of_mem hx
  have hn : (0 : ℝ) < s.length := by exact_mod_cast List.length_pos_iff.2 hne
  have hsum : 0 < s.sum := List.sum_pos s hs hne
  set m := s.sum / s.length with hm
  have hm0 : 0 < m := by positivity
  obtain ⟨z, hz, hzm⟩ : ∃ z ∈ s, z ≠ m := by
    by_cases h : x = m
    · exact ⟨y, hy, fun h' => hxy (h.trans h'.symm)⟩
    · exact ⟨x, hx, h⟩
  have key : ∀ w, 0 < w → w⁻¹ - (2 / m - w / m ^ 2) = (w - m) ^ 2 / (w * m ^ 2) := by
    intro w hw
    field_simp
    ring
  have h1 : (s.map fun x => 2 / m - x / m ^ 2).sum < (s.map fun x => x⁻¹).sum := by
    refine sum_lt_map (fun w hw => ?_) hz ?_
    · have h := key w (hs w hw)
      have : 0 ≤ (w - m) ^ 2 / (w * m ^ 2) := by
        have := hs w hw
        positivity
      linarith
    · have h := key z (hs z hz)
      have : 0 < (z - m) ^ 2 / (z * m ^ 2) := by
        have := hs z hz
        have := sub_ne_zero.2 hzm
        positivity
      linarith
  have h2 : ∀ l : List ℝ, (l.map fun x => 2 / m - x / m ^ 2).sum = l.length * (2 / m) - l.sum / m ^ 2 := by
    intro l
    induction l with
    | nil => simp
    | cons a t ih =>
      simp only [List.map_cons, List.sum_cons, List.length_cons, Nat.cast_add, Nat.cast_one] at ih ⊢
      rw [ih]
      ring
  rw [h2] at h1
  have h3 : s.sum = s.length * m := by rw [hm]; field_simp
  rw [h3] at h1
  have h4 : s.length * (2 / m) - s.length * m / m ^ 2 = s.length * m⁻¹ := by field_simp; ring
  rw [h4] at h1
  rw [sub_pos, lt_div_iff₀ hn]
  linarith

theorem exists_least {s : List ℝ} (hs : s ≠ []) : ∃ x ∈ s, ∀ y ∈ s, x ≤ y := by
  obtain ⟨x, hx, h⟩ := s.toFinset.exists_min_image id (by
    obtain ⟨x, hx⟩ := List.exists_mem_of_ne_nil s hs
    exact ⟨x, List.mem_toFinset.2 hx⟩)
  exact ⟨x, List.mem_toFinset.1 hx, fun y hy => h y (List.mem_toFinset.2 hy)⟩

theorem red_pareto (s : List ℝ) (hs : s ≠ []) (hp : ∀ x ∈ s, 0 < x) {x0 : ℝ} (h0 : x0 ∈ s) (hle : ∀ y ∈ s, x0 ≤ y) :
    ∃ C, Red .pareto s (fun p => 0 < p.1 ∧ 0 < p.2 ∧ p.2 ≤ x0) (fun p => 0 < p.1 ∧ 0 < p.2 ∧ p.2 ≤ x0)
    (rateObj ((s.map Real.log).sum / s.length - Real.log x0) (fun m => Real.log x0 - Real.log m)) id id s.length C := by
  have hn : (0 : ℝ) < s.length := by exact_mod_cast List.length_pos_iff.2 hs
  have hpos : ∀ p : ℝ × ℝ, 0 < p.1 → 0 < p.2 → p.2 ≤ x0 → ∀ x ∈ s, 0 < paretoPdf p.1 p.2 x := by
    intro p h1 h2 h3 x hx
    have hx' := hp x hx
    unfold paretoPdf
    rw [if_pos (h3.trans (hle x hx))]
    have := Real.rpow_pos_of_pos h2 p.1
    have := Real.rpow_pos_of_pos hx' (p.1 + 1)
    positivity
  refine ⟨(s.map fun x => -Real.log x).sum, ?_⟩
  refine { hK := hn, good := fun _ h => ⟨h.1, h.2.1⟩, pos := ?_, val := ?_, zero := ?_, tU := fun _ h => h, rA := fun _ h => h,
           rt := fun p _ => rfl, tr := fun p _ => rfl }
  · rintro p ⟨h1, h2, h3⟩
    exact lik_pos (hpos p h1 h2 h3)
  · rintro p ⟨h1, h2, h3⟩
    rw [log_lik (f := MlFam.pareto.pdf p.1 p.2) (hpos p h1 h2 h3)]
    have h4 : (s.map fun x => Real.log (MlFam.pareto.pdf p.1 p.2 x)) = s.map fun x => Real.log p.1 + p.1 * Real.log p.2 -
        p.1 * Real.log x + -Real.log x := by
      refine List.map_congr_left fun x hx => ?_
      have hx' := hp x hx
      have ha := Real.rpow_pos_of_pos h2 p.1
      have hb := Real.rpow_pos_of_pos hx' (p.1 + 1)
      simp only [MlFam.pdf, paretoPdf]
      rw [if_pos (h3.trans (hle x hx)), Real.log_div (by positivity) hb.ne', Real.log_mul h1.ne' ha.ne', Real.log_rpow h2,
        Real.log_rpow hx']
      ring
    rw [h4]
    have h5 : ∀ l : List ℝ, (l.map fun x => Real.log p.1 + p.1 * Real.log p.2 - p.1 * Real.log x + -Real.log x).sum =
        l.length * (Real.log p.1 + p.1 * Real.log p.2) - p.1 * (l.map Real.log).sum + (l.map fun x => -Real.log x).sum := by
      intro l
      induction l with
      | nil => simp
      | cons a t ih =>
        simp only [List.map_cons, List.sum_cons, List.length_cons, Nat.cast_add, Nat.cast_one] at ih ⊢
        rw [ih]
        ring
    rw [h5]
    unfold rateObj
    simp only [id]
    congr 1
    field_simp
    ring
  · rintro p ⟨h1, h2⟩ h3
    have h4 : x0 < p.2 := by
      by_contra h
      exact h3 ⟨h1, h2, not_lt.1 h⟩
    unfold lik
    refine List.prod_eq_zero (List.mem_map.2 ⟨x0, h0, ?_⟩)
    simp only [MlFam.pdf, paretoPdf]
    rw [if_neg (not_le.2 h4)]

end Verif.Ml
