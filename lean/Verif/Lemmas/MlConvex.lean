import Mathlib.Analysis.Convex.SpecificFunctions.Basic
import Mathlib.Analysis.Convex.Deriv
import Mathlib.Analysis.SpecialFunctions.Log.Deriv
import Mathlib.Topology.Order.Compact
import Mathlib.Tactic

/-!
# Likelihoods of families with a location and a scale and a log-concave density

In the coordinates `a = 1 / scale` and `b = -location / scale` the log-likelihood is `n log a - Σ φ (a x + b)`.
-/

namespace Verif.Ml
open Set Filter Topology

/-- a continuous function that is smaller outside a compact set than at some point has a maximum -/
theorem exists_max {X : Type*} [TopologicalSpace X] (G : X → ℝ) (U K : Set X) (p0 : X) (h0 : p0 ∈ U) (hK : IsCompact K)
    (hKU : K ⊆ U) (hc : ContinuousOn G K) (hout : ∀ p ∈ U, p ∉ K → G p < G p0) : ∃ p ∈ U, ∀ q ∈ U, G q ≤ G p := by
  have h0K : p0 ∈ K := by
    by_contra h
    exact lt_irrefl _ (hout p0 h0 h)
  obtain ⟨p, hp, hm⟩ := hK.exists_isMaxOn ⟨p0, h0K⟩ hc
  refine ⟨p, hKU hp, fun q hq => ?_⟩
  by_cases hqK : q ∈ K
  · exact hm hqK
  · exact (hout q hq hqK).le.trans (hm h0K)

/-- the log-likelihood -/
noncomputable def obj (φ : ℝ → ℝ) (s : List ℝ) (p : ℝ × ℝ) : ℝ :=
  s.length * Real.log p.1 - (s.map fun x => φ (p.1 * x + p.2)).sum

theorem sum_le_map {l : List ℝ} {f g : ℝ → ℝ} (h : ∀ x ∈ l, f x ≤ g x) : (l.map f).sum ≤ (l.map g).sum :=
  List.sum_le_sum h

theorem sum_lt_map {l : List ℝ} {f g : ℝ → ℝ} (h : ∀ x ∈ l, f x ≤ g x) {y : ℝ} (hy : y ∈ l) (hlt : f y < g y) :
    (l.map f).sum < (l.map g).sum := List.sum_lt_sum _ _ h ⟨y, hy, hlt⟩

theorem le_sum_of_mem {l : List ℝ} {f : ℝ → ℝ} (h : ∀ x ∈ l, 0 ≤ f x) {y : ℝ} (hy : y ∈ l) : f y ≤ (l.map f).sum := by
  refine List.single_le_sum ?_ _ (List.mem_map_of_mem hy)
  intro z hz
  obtain ⟨x, hx, rfl⟩ := List.mem_map.1 hz
  exact h x hx

theorem two_le_sum {l : List ℝ} {f : ℝ → ℝ} (h : ∀ x ∈ l, 0 ≤ f x) {x y : ℝ} (hx : x ∈ l) (hy : y ∈ l) (hxy : x ≠ y) :
    f x + f y ≤ (l.map f).sum := by
  induction l with
  | nil => cases hx
  | cons a t ih =>
    have ht : ∀ x ∈ t, 0 ≤ f x := fun x hx => h x (List.mem_cons_of_mem _ hx)
    have ha := h a List.mem_cons_self
    rw [List.map_cons, List.sum_cons]
    rcases List.mem_cons.1 hx with rfl | hx' <;> rcases List.mem_cons.1 hy with rfl | hy'
    · exact absurd rfl hxy
    · have := le_sum_of_mem ht hy'
      linarith
    · have := le_sum_of_mem ht hx'
      linarith
    · have := ih ht hx' hy'
      linarith

theorem obj_continuousOn {φ : ℝ → ℝ} (hφ : Continuous φ) (s : List ℝ) : ContinuousOn (obj φ s) {p | 0 < p.1} := by
  unfold obj
  refine ContinuousOn.sub ?_ ?_
  · refine continuousOn_const.mul ?_
    exact ContinuousOn.log continuousOn_fst fun p hp => (ne_of_gt hp)
  · refine Continuous.continuousOn ?_
    induction s with
    | nil => simpa using continuous_const
    | cons a t ih =>
      simp only [List.map_cons, List.sum_cons]
      exact (hφ.comp (by fun_prop)).add ih

/-- the maximum exists as soon as the sample has two different values -/
theorem obj_exists {φ : ℝ → ℝ} (hφ : Continuous φ) {c d : ℝ} (hc : 0 < c) (hlow : ∀ z, c * |z| - d ≤ φ z) (s : List ℝ)
    {x y : ℝ} (hx : x ∈ s) (hy : y ∈ s) (hxy : x ≠ y) :
    ∃ p : ℝ × ℝ, 0 < p.1 ∧ ∀ q : ℝ × ℝ, 0 < q.1 → obj φ s q ≤ obj φ s p := by
  have hn : (0 : ℝ) < s.length := by
    have : s ≠ [] := List.ne_nil_of_mem hx
    exact_mod_cast List.length_pos_iff.2 this
  set n : ℝ := (s.length : ℝ) with hnd
  have hR : 0 < |x - y| := abs_pos.2 (sub_ne_zero.2 hxy)
  have hS : ∀ p : ℝ × ℝ, obj φ s p ≤ n * Real.log p.1 - c * (s.map fun x => |p.1 * x + p.2|).sum + n * d := by
    intro p
    have h1 : (s.map fun x => c * |p.1 * x + p.2| - d).sum ≤ (s.map fun x => φ (p.1 * x + p.2)).sum :=
      sum_le_map fun x _ => hlow _
    have h2 : (s.map fun x => c * |p.1 * x + p.2| - d).sum = c * (s.map fun x => |p.1 * x + p.2|).sum - n * d := by
      rw [hnd]
      clear h1 hn hnd hx hy
      clear n
      induction s with
      | nil => simp
      | cons a t ih =>
        simp only [List.map_cons, List.sum_cons, List.length_cons, Nat.cast_add, Nat.cast_one] at ih ⊢
        rw [ih]
        ring
    unfold obj
    rw [h2] at h1
    linarith
  have hB1 : ∀ p : ℝ × ℝ, 0 < p.1 → obj φ s p ≤ n * Real.log p.1 - c * |x - y| * p.1 + n * d := by
    intro p hp
    have h1 := two_le_sum (f := fun x => |p.1 * x + p.2|) (fun x _ => abs_nonneg _) hx hy hxy
    have h2 : |p.1 * (x - y)| ≤ |p.1 * x + p.2| + |p.1 * y + p.2| := by
      have : p.1 * (x - y) = (p.1 * x + p.2) - (p.1 * y + p.2) := by ring
      rw [this]
      exact abs_sub _ _
    rw [abs_mul, abs_of_pos hp] at h2
    have := hS p
    nlinarith
  have hB2 : ∀ p : ℝ × ℝ, 0 < p.1 → obj φ s p ≤ n * Real.log p.1 - c * (|p.2| - p.1 * |x|) + n * d := by
    intro p hp
    have h1 := le_sum_of_mem (f := fun x => |p.1 * x + p.2|) (fun x _ => abs_nonneg _) hx
    have h2 : |p.2| ≤ |p.1 * x + p.2| + |p.1 * x| := by
      have : p.2 = (p.1 * x + p.2) - (p.1 * x) := by ring
      calc |p.2| = |(p.1 * x + p.2) - (p.1 * x)| := by rw [← this]
        _ ≤ _ := abs_sub _ _
    rw [abs_mul, abs_of_pos hp] at h2
    have := hS p
    nlinarith
  set L := obj φ s (1, 0) with hL
  -- small `a`
  set a0 := Real.exp ((L - n * d) / n - 1) with ha0
  have ha0p : 0 < a0 := Real.exp_pos _
  have hsmall : ∀ p : ℝ × ℝ, 0 < p.1 → p.1 < a0 → obj φ s p < L := by
    intro p hp h
    have h1 := hB1 p hp
    have h2 : Real.log p.1 < (L - n * d) / n - 1 := by
      rw [← Real.log_exp ((L - n * d) / n - 1)]
      exact Real.log_lt_log hp h
    have h3 : n * Real.log p.1 < n * ((L - n * d) / n - 1) := mul_lt_mul_of_pos_left h2 hn
    have h4 : n * ((L - n * d) / n - 1) = L - n * d - n := by field_simp
    have h5 : 0 < c * |x - y| * p.1 := by positivity
    linarith
  -- large `a`
  obtain ⟨a1, ha1⟩ : ∃ a1 : ℝ, ∀ a, a1 < a → 0 < a → n * Real.log a - c * |x - y| * a + n * d < L := by
    have ht : Tendsto (fun a : ℝ => n * Real.log a - c * |x - y| * a) atTop atBot := by
      have h1 : Tendsto (fun a : ℝ => a * (n * (Real.log a / a) - c * |x - y|)) atTop atBot := by
        refine Tendsto.atTop_mul_neg (C := -(c * |x - y|)) (by have : 0 < c * |x - y| := by positivity
                                                               linarith) tendsto_id ?_
        have h2 : Tendsto (fun a : ℝ => Real.log a / a) atTop (𝓝 0) := by
          have := Real.isLittleO_log_id_atTop.tendsto_div_nhds_zero
          simpa using this
        have h3 := (h2.const_mul n).sub_const (c * |x - y|)
        simpa using h3
      refine h1.congr' ?_
      filter_upwards [eventually_gt_atTop 0] with a ha
      field_simp
    have := (ht.eventually_lt_atBot (L - n * d))
    obtain ⟨a1, h⟩ := (this.and (eventually_gt_atTop 0)).exists_forall_of_atTop
    refine ⟨a1, fun a h1 h2 => ?_⟩
    have := (h a h1.le).1
    linarith
  set a2 := max a1 a0 with ha2
  have hlarge : ∀ p : ℝ × ℝ, 0 < p.1 → a2 < p.1 → obj φ s p < L := by
    intro p hp h
    exact (hB1 p hp).trans_lt (ha1 _ ((le_max_left _ _).trans_lt h) hp)
  -- large `b`
  set B := (n * Real.log a2 + n * d - L) / c + a2 * |x| with hB
  have ha2p : 0 < a2 := ha0p.trans_le (le_max_right _ _)
  have hb : ∀ p : ℝ × ℝ, 0 < p.1 → p.1 ≤ a2 → B < |p.2| → obj φ s p < L := by
    intro p hp h1 h2
    have h3 := hB2 p hp
    have h4 : n * Real.log p.1 ≤ n * Real.log a2 := mul_le_mul_of_nonneg_left (Real.log_le_log hp h1) hn.le
    have h5 : p.1 * |x| ≤ a2 * |x| := mul_le_mul_of_nonneg_right h1 (abs_nonneg _)
    have h6 : c * B < c * |p.2| := mul_lt_mul_of_pos_left h2 hc
    have h7 : c * B = n * Real.log a2 + n * d - L + c * (a2 * |x|) := by
      rw [hB]
      field_simp
    nlinarith
  obtain ⟨p, hp, hm⟩ := exists_max (obj φ s) {p | 0 < p.1} (Icc a0 a2 ×ˢ Icc (-B) B) (1, 0) (by simp)
    (isCompact_Icc.prod isCompact_Icc) (fun p hp => ha0p.trans_le hp.1.1)
    ((obj_continuousOn hφ s).mono fun p hp => ha0p.trans_le hp.1.1) (by
      intro p hp hout
      by_contra hge
      have h1 : a0 ≤ p.1 := by
        by_contra h
        exact hge (hsmall p hp (not_le.1 h))
      have h2 : p.1 ≤ a2 := by
        by_contra h
        exact hge (hlarge p hp (not_le.1 h))
      have h3 : |p.2| ≤ B := by
        by_contra h
        exact hge (hb p hp h2 (not_le.1 h))
      exact hout ⟨⟨h1, h2⟩, abs_le.1 h3⟩)
  exact ⟨p, hp, fun q hq => hm q hq⟩

/-- and there is only one -/
theorem obj_unique {φ : ℝ → ℝ} (hφ : StrictConvexOn ℝ univ φ) (s : List ℝ) (hs : s ≠ []) {p q : ℝ × ℝ} (hp : 0 < p.1)
    (hq : 0 < q.1) (hpm : ∀ r : ℝ × ℝ, 0 < r.1 → obj φ s r ≤ obj φ s p)
    (hqm : ∀ r : ℝ × ℝ, 0 < r.1 → obj φ s r ≤ obj φ s q) : p = q := by
  by_contra hne
  have hn : (0 : ℝ) < s.length := by exact_mod_cast List.length_pos_iff.2 hs
  have he : obj φ s p = obj φ s q := le_antisymm (hqm p hp) (hpm q hq)
  set r : ℝ × ℝ := ((p.1 + q.1) / 2, (p.2 + q.2) / 2) with hr
  have hr0 : 0 < r.1 := by rw [hr]; simp only; linarith
  have hle := hpm r hr0
  have hz : ∀ x, r.1 * x + r.2 = (1 / 2 : ℝ) • (p.1 * x + p.2) + (1 / 2 : ℝ) • (q.1 * x + q.2) := by
    intro x
    rw [hr]
    simp only [smul_eq_mul]
    ring
  have hconv : ∀ x, φ (r.1 * x + r.2) ≤ 1 / 2 * φ (p.1 * x + p.2) + 1 / 2 * φ (q.1 * x + q.2) := by
    intro x
    rw [hz x]
    exact hφ.convexOn.2 (mem_univ _) (mem_univ _) (by norm_num) (by norm_num) (by norm_num)
  have hsum : ∀ l : List ℝ, (l.map fun x => 1 / 2 * φ (p.1 * x + p.2) + 1 / 2 * φ (q.1 * x + q.2)).sum =
      1 / 2 * (l.map fun x => φ (p.1 * x + p.2)).sum + 1 / 2 * (l.map fun x => φ (q.1 * x + q.2)).sum := by
    intro l
    induction l with
    | nil => simp
    | cons a t ih =>
      simp only [List.map_cons, List.sum_cons] at ih ⊢
      rw [ih]
      ring
  by_cases h1 : p.1 = q.1
  · have h2 : p.2 ≠ q.2 := fun h => hne (Prod.ext h1 h)
    have hr1 : r.1 = p.1 := by rw [hr]; simp only; linarith
    obtain ⟨y, hy⟩ := List.exists_mem_of_ne_nil s hs
    have hlt : φ (r.1 * y + r.2) < 1 / 2 * φ (p.1 * y + p.2) + 1 / 2 * φ (q.1 * y + q.2) := by
      rw [hz y]
      exact hφ.2 (mem_univ _) (mem_univ _) (by rw [h1]; intro h; exact h2 (by linarith)) (by norm_num) (by norm_num)
        (by norm_num)
    have h3 := sum_lt_map (f := fun x => φ (r.1 * x + r.2)) (fun x _ => hconv x) hy hlt
    rw [hsum] at h3
    unfold obj at he hle
    rw [hr1] at hle h3
    rw [h1] at he hle h3
    linarith
  · have h3 := sum_le_map (l := s) (f := fun x => φ (r.1 * x + r.2)) (fun x _ => hconv x)
    rw [hsum] at h3
    have h4 : 1 / 2 * Real.log p.1 + 1 / 2 * Real.log q.1 < Real.log r.1 := by
      have := strictConcaveOn_log_Ioi.2 (mem_Ioi.2 hp) (mem_Ioi.2 hq) h1 (show (0 : ℝ) < 1 / 2 by norm_num) (show (0 : ℝ) < 1 / 2 by norm_num)
        (by norm_num)
      simp only [smul_eq_mul] at this
      have e : r.1 = 1 / 2 * p.1 + 1 / 2 * q.1 := by rw [hr]; simp only; ring
      rw [e]
      exact this
    have h5 := mul_lt_mul_of_pos_left h4 hn
    unfold obj at he hle
    linarith

/-- a sample of equal values is as likely as one likes -/
theorem obj_unbounded (φ : ℝ → ℝ) (s : List ℝ) (hs : s ≠ []) {c : ℝ} (hc : ∀ x ∈ s, x = c) (M : ℝ) :
    ∃ p : ℝ × ℝ, 0 < p.1 ∧ M < obj φ s p := by
  have hn : (0 : ℝ) < s.length := by exact_mod_cast List.length_pos_iff.2 hs
  have hsum : ∀ a : ℝ, ∀ l : List ℝ, (∀ x ∈ l, x = c) → (l.map fun x => φ (a * x + -(a * c))).sum = l.length * φ 0 := by
    intro a l
    induction l with
    | nil => simp
    | cons y t ih =>
      intro h
      simp only [List.map_cons, List.sum_cons, List.length_cons, Nat.cast_add, Nat.cast_one]
      rw [ih fun x hx => h x (List.mem_cons_of_mem _ hx), h y List.mem_cons_self]
      rw [add_neg_cancel]
      ring
  refine ⟨(Real.exp (M / s.length + φ 0 + 1), -(Real.exp (M / s.length + φ 0 + 1) * c)), Real.exp_pos _, ?_⟩
  unfold obj
  rw [hsum _ s hc, Real.log_exp]
  have : (s.length : ℝ) * (M / s.length + φ 0 + 1) = M + s.length * φ 0 + s.length := by field_simp
  rw [this]
  linarith

/-! ## The five shapes -/

noncomputable def φGumbel (z : ℝ) : ℝ := z + Real.exp (-z)
noncomputable def φMoyal (z : ℝ) : ℝ := 1 / 2 * (z + Real.exp (-z))
noncomputable def φWeibull (z : ℝ) : ℝ := Real.exp z - z
noncomputable def φLogistic (z : ℝ) : ℝ := z + 2 * Real.log (1 + Real.exp (-z))

theorem φGumbel_cont : Continuous φGumbel := by unfold φGumbel; fun_prop
theorem φMoyal_cont : Continuous φMoyal := by unfold φMoyal; fun_prop
theorem φWeibull_cont : Continuous φWeibull := by unfold φWeibull; fun_prop
theorem φLogistic_cont : Continuous φLogistic := by
  unfold φLogistic
  refine continuous_id.add (continuous_const.mul (Continuous.log (by fun_prop) fun z => ?_))
  have := Real.exp_pos (-z)
  positivity

private theorem exp_ge_two (w : ℝ) (_hw : 0 ≤ w) : 2 * w ≤ Real.exp w := by
  have h1 := Real.add_one_le_exp (w - 1)
  have h2 : Real.exp w = Real.exp 1 * Real.exp (w - 1) := by rw [← Real.exp_add]; ring_nf
  have h3 : 2 ≤ Real.exp 1 := by have := Real.add_one_le_exp (1 : ℝ); linarith
  have h4 := Real.exp_pos (w - 1)
  nlinarith

theorem φGumbel_low (z : ℝ) : 1 * |z| - 0 ≤ φGumbel z := by
  unfold φGumbel
  rcases le_total 0 z with h | h
  · rw [abs_of_nonneg h]
    have := Real.exp_pos (-z)
    linarith
  · rw [abs_of_nonpos h]
    have := exp_ge_two (-z) (by linarith)
    linarith

theorem φMoyal_low (z : ℝ) : 1 / 2 * |z| - 0 ≤ φMoyal z := by
  have := φGumbel_low z
  unfold φGumbel at this
  unfold φMoyal
  linarith

theorem φWeibull_low (z : ℝ) : 1 * |z| - 0 ≤ φWeibull z := by
  have := φGumbel_low (-z)
  unfold φGumbel at this
  unfold φWeibull
  rw [abs_neg, neg_neg] at this
  linarith

theorem φLogistic_low (z : ℝ) : 1 * |z| - 0 ≤ φLogistic z := by
  unfold φLogistic
  have h0 := Real.exp_pos (-z)
  have h1 : 0 ≤ Real.log (1 + Real.exp (-z)) := Real.log_nonneg (by linarith)
  have h2 : -z ≤ Real.log (1 + Real.exp (-z)) := by
    rw [Real.le_log_iff_exp_le (by linarith)]
    linarith
  rcases le_total 0 z with h | h
  · rw [abs_of_nonneg h]
    linarith
  · rw [abs_of_nonpos h]
    linarith

private theorem gumbel_deriv (z : ℝ) : HasDerivAt φGumbel (1 - Real.exp (-z)) z := by
  have h := (hasDerivAt_id z).add ((hasDerivAt_neg z).exp)
  have e : (1 : ℝ) + Real.exp (-z) * -1 = 1 - Real.exp (-z) := by ring
  exact e ▸ h

theorem φGumbel_convex : StrictConvexOn ℝ univ φGumbel := by
  refine StrictMono.strictConvexOn_univ_of_deriv φGumbel_cont ?_
  have : deriv φGumbel = fun z => 1 - Real.exp (-z) := funext fun z => (gumbel_deriv z).deriv
  rw [this]
  intro a b h
  have := Real.exp_lt_exp.2 (neg_lt_neg h)
  simp only
  linarith

theorem φMoyal_convex : StrictConvexOn ℝ univ φMoyal := by
  refine ⟨convex_univ, fun x _ y _ hxy a b ha hb hab => ?_⟩
  have := φGumbel_convex.2 (mem_univ x) (mem_univ y) hxy ha hb hab
  simp only [smul_eq_mul] at this ⊢
  have e : ∀ z, φMoyal z = 1 / 2 * φGumbel z := fun z => rfl
  rw [e, e, e]
  linarith

theorem φWeibull_convex : StrictConvexOn ℝ univ φWeibull := by
  refine ⟨convex_univ, fun x _ y _ hxy a b ha hb hab => ?_⟩
  have := φGumbel_convex.2 (mem_univ (-x)) (mem_univ (-y)) (fun h => hxy (neg_injective h)) ha hb hab
  simp only [smul_eq_mul] at this ⊢
  have e : ∀ z, φWeibull z = φGumbel (-z) := fun z => by unfold φWeibull φGumbel; rw [neg_neg]; ring
  rw [e, e, e]
  have e2 : -(a * x + b * y) = a * -x + b * -y := by ring
  rw [e2]
  exact this

theorem φLogistic_convex : StrictConvexOn ℝ univ φLogistic := by
  refine StrictMono.strictConvexOn_univ_of_deriv φLogistic_cont ?_
  have hd : ∀ z, HasDerivAt φLogistic (1 - 2 * (Real.exp (-z) / (1 + Real.exp (-z)))) z := by
    intro z
    have hp : (0 : ℝ) < 1 + Real.exp (-z) := by
      have := Real.exp_pos (-z)
      linarith
    have h1 : HasDerivAt (fun z => 1 + Real.exp (-z)) (Real.exp (-z) * -1) z := ((hasDerivAt_neg z).exp).const_add 1
    have h := (hasDerivAt_id z).add ((h1.log hp.ne').const_mul 2)
    have e : (1 : ℝ) + 2 * (Real.exp (-z) * -1 / (1 + Real.exp (-z))) = 1 - 2 * (Real.exp (-z) / (1 + Real.exp (-z))) := by ring
    exact e ▸ h
  have : deriv φLogistic = fun z => 1 - 2 * (Real.exp (-z) / (1 + Real.exp (-z))) := funext fun z => (hd z).deriv
  rw [this]
  intro a b h
  have hlt := Real.exp_lt_exp.2 (neg_lt_neg h)
  have ha := Real.exp_pos (-a)
  have hb := Real.exp_pos (-b)
  have : Real.exp (-b) / (1 + Real.exp (-b)) < Real.exp (-a) / (1 + Real.exp (-a)) := by
    rw [div_lt_div_iff₀ (by linarith) (by linarith)]
    nlinarith
  simp only
  linarith

end Verif.Ml
