import Verif.Lemmas.MlFamilies
import Verif.Lemmas.MlCauchy
import Verif.Spec.HalfScale
import Verif.Spec.LocScale
import Mathlib.Tactic

/-!
# C139: for which samples a most likely distribution exists, and that it is the only one

The families that `mle` fits numerically.
-/

namespace Verif.Props
open Set Verif Verif.Spec Verif.Ml

private theorem map_two {s : List ℝ} {τ : ℝ → ℝ} {x y : ℝ} (hx : x ∈ s) (hy : y ∈ s) (h : τ x ≠ τ y) :
    τ x ∈ s.map τ ∧ τ y ∈ s.map τ ∧ τ x ≠ τ y :=
  ⟨List.mem_map_of_mem hx, List.mem_map_of_mem hy, h⟩

private theorem convex_unique {F : MlFam} {s : List ℝ} {φ τ : ℝ → ℝ} {T R : ℝ × ℝ → ℝ × ℝ} {C c d : ℝ}
    (h : Red F s (fun p => 0 < p.1) (fun p => F.Good p.1 p.2) (obj φ (s.map τ)) T R 1 C) (hφ : Continuous φ) (hc : 0 < c)
    (hlow : ∀ z, c * |z| - d ≤ φ z) (hcv : StrictConvexOn ℝ univ φ) {x y : ℝ} (hx : x ∈ s) (hy : y ∈ s) (hxy : τ x ≠ τ y) :
    ∃! p, F.MostLikely s p := by
  obtain ⟨h1, h2, h3⟩ := map_two hx hy hxy
  exact h.existsUnique (obj_exists hφ hc hlow _ h1 h2 h3) fun p q hp hq hpm hqm =>
    obj_unique hcv _ (List.ne_nil_of_mem h1) hp hq hpm hqm

private theorem log_ne {x y : ℝ} (hx : 0 < x) (hy : 0 < y) (h : x ≠ y) : Real.log x ≠ Real.log y :=
  fun he => h (Real.log_injOn_pos hx hy he)

/-- C139: a sample with two different values has exactly one most likely distribution. -/
theorem ml_unique (F : MlFam) (s : List ℝ) (hin : ∀ x ∈ s, F.Inside x) (h2 : ∃ x ∈ s, ∃ y ∈ s, x ≠ y) :
    ∃! p, F.MostLikely s p := by
  obtain ⟨x, hx, y, hy, hxy⟩ := h2
  have hs : s ≠ [] := List.ne_nil_of_mem hx
  cases F with
  | gumbel =>
    obtain ⟨C, h⟩ := red_gumbel s
    exact convex_unique h φGumbel_cont one_pos φGumbel_low φGumbel_convex hx hy hxy
  | logistic =>
    obtain ⟨C, h⟩ := red_logistic s
    exact convex_unique h φLogistic_cont one_pos φLogistic_low φLogistic_convex hx hy hxy
  | moyal =>
    obtain ⟨C, h⟩ := red_moyal s
    exact convex_unique h φMoyal_cont one_half_pos φMoyal_low φMoyal_convex hx hy hxy
  | weibull =>
    obtain ⟨C, h⟩ := red_weibull s hin
    exact convex_unique h φWeibull_cont one_pos φWeibull_low φWeibull_convex hx hy (log_ne (hin x hx) (hin y hy) hxy)
  | logLogistic =>
    obtain ⟨C, h⟩ := red_logLogistic s hin
    exact convex_unique h φLogistic_cont one_pos φLogistic_low φLogistic_convex hx hy (log_ne (hin x hx) (hin y hy) hxy)
  | gamma =>
    obtain ⟨C, h⟩ := red_gamma s hs hin
    exact h.existsUnique (gamma_exists hin hx hy hxy) fun p q hp hq hpm hqm => gammaFam.unique hp hq hpm hqm
  | inverseGamma =>
    obtain ⟨C, h⟩ := red_inverseGamma s hs hin
    have hg := gamma_exists (s := s.map fun x => x⁻¹) (by
      intro z hz
      obtain ⟨w, hw, rfl⟩ := List.mem_map.1 hz
      exact inv_pos.2 (hin w hw)) (List.mem_map_of_mem (f := fun x => x⁻¹) hx) (List.mem_map_of_mem (f := fun x => x⁻¹) hy)
      (fun he => hxy (inv_injective he))
    simp only [List.map_map, List.length_map] at hg
    exact h.existsUnique hg fun p q hp hq hpm hqm => gammaFam.unique hp hq hpm hqm
  | beta =>
    obtain ⟨C, h⟩ := red_beta s hs hin
    exact h.existsUnique (beta_exists hin hx hy hxy) fun p q hp hq hpm hqm => betaFam.unique hp hq hpm hqm
  | wald =>
    obtain ⟨C, h⟩ := red_wald s hs hin
    have hv := inv_mean_lt hin hx hy hxy
    have hm : 0 < s.sum / s.length := by
      have := List.sum_pos s hin hs
      have : (0 : ℝ) < s.length := by exact_mod_cast List.length_pos_iff.2 hs
      positivity
    set m := s.sum / s.length with hmd
    have hg0 : (fun μ : ℝ => (m - μ) ^ 2 / (μ ^ 2 * m)) m = 0 := by simp
    have hg1 : ∀ t : ℝ, 0 < t → 0 ≤ (fun μ : ℝ => (m - μ) ^ 2 / (μ ^ 2 * m)) t := fun t ht => by positivity
    have hg2 : ∀ t : ℝ, 0 < t → t ≠ m → 0 < (fun μ : ℝ => (m - μ) ^ 2 / (μ ^ 2 * m)) t := fun t ht hne => by
      have := sub_ne_zero.2 hne.symm
      positivity
    refine h.existsUnique ⟨(_, m), ⟨one_div_pos.2 hv, hm⟩, fun q hq => rate_max (g := fun μ : ℝ => (m - μ) ^ 2 / (μ ^ 2 * m)) (m := m) (V := fun t => 0 < t) hv hg0 hg1 q hq.1 hq.2⟩ ?_
    intro p q hp hq hpm hqm
    rw [rate_unique (g := fun μ : ℝ => (m - μ) ^ 2 / (μ ^ 2 * m)) (m := m) (V := fun t => 0 < t) hv hg0 hg2 p hp.1 hp.2 (hpm _ ⟨one_div_pos.2 hv, hm⟩),
      rate_unique (g := fun μ : ℝ => (m - μ) ^ 2 / (μ ^ 2 * m)) (m := m) (V := fun t => 0 < t) hv hg0 hg2 q hq.1 hq.2 (hqm _ ⟨one_div_pos.2 hv, hm⟩)]
  | pareto =>
    obtain ⟨x0, h0, hle⟩ := exists_least hs
    have h0p : 0 < x0 := hin x0 h0
    obtain ⟨C, h⟩ := red_pareto s hs hin h0 hle
    have hn : (0 : ℝ) < s.length := by exact_mod_cast List.length_pos_iff.2 hs
    have hv : 0 < (s.map Real.log).sum / s.length - Real.log x0 := by
      obtain ⟨z, hz, hzm⟩ : ∃ z ∈ s, z ≠ x0 := by
        by_cases h : x = x0
        · exact ⟨y, hy, fun h' => hxy (h.trans h'.symm)⟩
        · exact ⟨x, hx, h⟩
      have h1 : (s.map fun _ => Real.log x0).sum < (s.map fun x => Real.log x).sum :=
        sum_lt_map (fun w hw => Real.log_le_log h0p (hle w hw)) hz (Real.log_lt_log h0p (lt_of_le_of_ne (hle z hz) hzm.symm))
      rw [List.map_const', List.sum_replicate, nsmul_eq_mul] at h1
      rw [sub_pos, lt_div_iff₀ hn]
      linarith
    have hg0 : (fun m : ℝ => Real.log x0 - Real.log m) x0 = 0 := by simp
    have hg1 : ∀ t : ℝ, 0 < t ∧ t ≤ x0 → 0 ≤ (fun m : ℝ => Real.log x0 - Real.log m) t := fun t ht =>
      sub_nonneg.2 (Real.log_le_log ht.1 ht.2)
    have hg2 : ∀ t : ℝ, 0 < t ∧ t ≤ x0 → t ≠ x0 → 0 < (fun m : ℝ => Real.log x0 - Real.log m) t := fun t ht hne =>
      sub_pos.2 (Real.log_lt_log ht.1 (lt_of_le_of_ne ht.2 hne))
    refine h.existsUnique ⟨(_, x0), ⟨one_div_pos.2 hv, h0p, le_rfl⟩, fun q hq => rate_max (g := fun m : ℝ => Real.log x0 - Real.log m) (m := x0) (V := fun t => 0 < t ∧ t ≤ x0) hv hg0 hg1 q hq.1 hq.2⟩ ?_
    intro p q hp hq hpm hqm
    rw [rate_unique (g := fun m : ℝ => Real.log x0 - Real.log m) (m := x0) (V := fun t => 0 < t ∧ t ≤ x0) hv hg0 hg2 p hp.1 hp.2 (hpm _ ⟨one_div_pos.2 hv, h0p, le_rfl⟩),
      rate_unique (g := fun m : ℝ => Real.log x0 - Real.log m) (m := x0) (V := fun t => 0 < t ∧ t ≤ x0) hv hg0 hg2 q hq.1 hq.2 (hqm _ ⟨one_div_pos.2 hv, h0p, le_rfl⟩)]

example : ∃! p, MlFam.beta.MostLikely [1 / 4, 1 / 2, 1 / 2] p :=
  ml_unique .beta _ (by intro x hx; simp only [List.mem_cons, List.not_mem_nil, or_false] at hx; rcases hx with rfl | rfl | rfl <;> exact ⟨by norm_num, by norm_num⟩)
    ⟨1 / 4, by simp, 1 / 2, by simp, by norm_num⟩

private theorem convex_none {F : MlFam} {s : List ℝ} {φ τ : ℝ → ℝ} {T R : ℝ × ℝ → ℝ × ℝ} {C c : ℝ}
    (h : Red F s (fun p => 0 < p.1) (fun p => F.Good p.1 p.2) (obj φ (s.map τ)) T R 1 C) (hs : s ≠ []) (hc : ∀ x ∈ s, x = c)
    (M : ℝ) : ∃ a b, F.Good a b ∧ M < lik (F.pdf a b) s :=
  h.unbounded (fun M => obj_unbounded φ _ (by simpa using hs) (c := τ c) (by
    intro z hz
    obtain ⟨w, hw, rfl⟩ := List.mem_map.1 hz
    rw [hc w hw]) M) M

/-- C139: a sample in which all values are the same can be made as likely as one likes. -/
theorem ml_constant (F : MlFam) (s : List ℝ) (hs : s ≠ []) (c : ℝ) (hc : ∀ x ∈ s, x = c) (hin : F.Inside c) (M : ℝ) :
    ∃ a b, F.Good a b ∧ M < lik (F.pdf a b) s := by
  cases F with
  | gumbel =>
    obtain ⟨C, h⟩ := red_gumbel s
    exact convex_none h hs hc M
  | logistic =>
    obtain ⟨C, h⟩ := red_logistic s
    exact convex_none h hs hc M
  | moyal =>
    obtain ⟨C, h⟩ := red_moyal s
    exact convex_none h hs hc M
  | weibull =>
    obtain ⟨C, h⟩ := red_weibull s fun x hx => by rw [hc x hx]; exact hin
    exact convex_none h hs hc M
  | logLogistic =>
    obtain ⟨C, h⟩ := red_logLogistic s fun x hx => by rw [hc x hx]; exact hin
    exact convex_none h hs hc M
  | gamma =>
    obtain ⟨C, h⟩ := red_gamma s hs fun x hx => by rw [hc x hx]; exact hin
    rw [mean_const hs hc, mean_const hs hc] at h
    exact h.unbounded (gamma_unbounded hin) M
  | inverseGamma =>
    obtain ⟨C, h⟩ := red_inverseGamma s hs fun x hx => by rw [hc x hx]; exact hin
    rw [mean_const hs hc, mean_const hs hc] at h
    exact h.unbounded (gamma_unbounded (inv_pos.2 hin)) M
  | beta =>
    obtain ⟨C, h⟩ := red_beta s hs fun x hx => by rw [hc x hx]; exact hin
    rw [mean_const hs hc, mean_const hs hc] at h
    exact h.unbounded (beta_unbounded hin.1 hin.2) M
  | wald =>
    have hc0 : 0 < c := hin
    obtain ⟨C, h⟩ := red_wald s hs fun x hx => by rw [hc x hx]; exact hin
    have hm : s.sum / s.length = c := by
      have := mean_const hs hc id
      rwa [List.map_id] at this
    rw [mean_const hs hc, hm, sub_self] at h
    refine h.unbounded (fun M => ?_) M
    obtain ⟨p, ⟨h1, h2⟩, h3⟩ := rate_unbounded (g := fun μ => (c - μ) ^ 2 / (μ ^ 2 * c)) (m := c) (by simp) M
    exact ⟨p, ⟨h1, by rw [h2]; exact hc0⟩, h3⟩
  | pareto =>
    have hc0 : 0 < c := hin
    have hcs : c ∈ s := by
      obtain ⟨x, hx⟩ := List.exists_mem_of_ne_nil s hs
      rwa [hc x hx] at hx
    obtain ⟨C, h⟩ := red_pareto s hs (fun x hx => by rw [hc x hx]; exact hin) hcs fun y hy => (hc y hy).ge
    rw [mean_const hs hc, sub_self] at h
    refine h.unbounded (fun M => ?_) M
    obtain ⟨p, ⟨h1, h2⟩, h3⟩ := rate_unbounded (g := fun m => Real.log c - Real.log m) (m := c) (by simp) M
    exact ⟨p, ⟨h1, by rw [h2]; exact hc0, h2.le⟩, h3⟩

example : ∃ a b, MlFam.gamma.Good a b ∧ 1000 < lik (MlFam.gamma.pdf a b) [3, 3] :=
  ml_constant .gamma [3, 3] (by simp) 3 (by simp) (by show (0 : ℝ) < 3; norm_num) 1000

/-- C139: a most likely distribution exists exactly for the samples with two different values. -/
theorem ml_iff (F : MlFam) (s : List ℝ) (hs : s ≠ []) (hin : ∀ x ∈ s, F.Inside x) :
    (∃ p, F.MostLikely s p) ↔ ∃ x ∈ s, ∃ y ∈ s, x ≠ y := by
  constructor
  · rintro ⟨p, hp, hm⟩
    by_contra h
    push Not at h
    obtain ⟨c, hcs⟩ := List.exists_mem_of_ne_nil s hs
    obtain ⟨a, b, hg, hlt⟩ := ml_constant F s hs c (fun x hx => h x hx c hcs) (hin c hcs) (lik (F.pdf p.1 p.2) s)
    exact absurd (hm a b hg) (not_le.2 hlt)
  · intro h
    exact (ml_unique F s hin h).exists

example : ¬ ∃ p, MlFam.pareto.MostLikely [2, 2, 2] p := by
  rw [ml_iff .pareto _ (by simp) (by intro x hx; simp at hx; rw [hx]; show (0 : ℝ) < 2; norm_num)]
  simp

/-- C139: the most likely Wald distribution in closed form. -/
theorem wald_ml_closed (s : List ℝ) (hin : ∀ x ∈ s, 0 < x) (h2 : ∃ x ∈ s, ∃ y ∈ s, x ≠ y) :
    MlFam.wald.MostLikely s (s.sum / s.length, 1 / ((s.map fun x => x⁻¹).sum / s.length - (s.sum / s.length)⁻¹)) := by
  obtain ⟨x, hx, y, hy, hxy⟩ := h2
  have hs : s ≠ [] := List.ne_nil_of_mem hx
  obtain ⟨C, h⟩ := red_wald s hs hin
  have hv := inv_mean_lt hin hx hy hxy
  have hm : 0 < s.sum / s.length := by
    have := List.sum_pos s hin hs
    have : (0 : ℝ) < s.length := by exact_mod_cast List.length_pos_iff.2 hs
    positivity
  set m := s.sum / s.length with hmd
  have hp : 0 < 1 / ((s.map fun x => x⁻¹).sum / s.length - m⁻¹) := one_div_pos.2 hv
  refine (h.iff ⟨(1, 1), one_pos, one_pos⟩ _).2 ⟨⟨hm, hp⟩, fun q hq => ?_⟩
  exact rate_max (g := fun μ : ℝ => (m - μ) ^ 2 / (μ ^ 2 * m)) (m := m) (V := fun t => 0 < t) hv (by simp)
    (fun t ht => by positivity) q hq.1 hq.2

example : MlFam.wald.MostLikely [1, 2] (3 / 2, 12) := by
  have := wald_ml_closed [1, 2] (by
    intro x hx
    simp only [List.mem_cons, List.not_mem_nil, or_false] at hx
    rcases hx with rfl | rfl <;> norm_num) ⟨1, by simp, 2, by simp, by norm_num⟩
  norm_num at this
  exact this

/-- C139: the most likely Pareto distribution in closed form: `m` is the smallest value. -/
theorem pareto_ml_closed (s : List ℝ) (hin : ∀ x ∈ s, 0 < x) (h2 : ∃ x ∈ s, ∃ y ∈ s, x ≠ y) (x0 : ℝ) (h0 : x0 ∈ s)
    (hle : ∀ y ∈ s, x0 ≤ y) (p : ℝ × ℝ) :
    MlFam.pareto.MostLikely s p ↔ p = (s.length / (s.map fun x => Real.log (x / x0)).sum, x0) := by
  obtain ⟨x, hx, y, hy, hxy⟩ := h2
  have hs : s ≠ [] := List.ne_nil_of_mem hx
  have h0p : 0 < x0 := hin x0 h0
  obtain ⟨C, h⟩ := red_pareto s hs hin h0 hle
  have hn : (0 : ℝ) < s.length := by exact_mod_cast List.length_pos_iff.2 hs
  have hv : 0 < (s.map Real.log).sum / s.length - Real.log x0 := by
    obtain ⟨z, hz, hzm⟩ : ∃ z ∈ s, z ≠ x0 := by
      by_cases h : x = x0
      · exact ⟨y, hy, fun h' => hxy (h.trans h'.symm)⟩
      · exact ⟨x, hx, h⟩
    have h1 : (s.map fun _ => Real.log x0).sum < (s.map fun x => Real.log x).sum :=
      sum_lt_map (fun w hw => Real.log_le_log h0p (hle w hw)) hz (Real.log_lt_log h0p (lt_of_le_of_ne (hle z hz) hzm.symm))
    rw [List.map_const', List.sum_replicate, nsmul_eq_mul] at h1
    rw [sub_pos, lt_div_iff₀ hn]
    linarith
  have hsum : (s.map fun x => Real.log (x / x0)).sum = s.length * ((s.map Real.log).sum / s.length - Real.log x0) := by
    have h1 : s.map (fun x => Real.log (x / x0)) = s.map fun x => Real.log x - Real.log x0 :=
      List.map_congr_left fun x hx => Real.log_div (hin x hx).ne' h0p.ne'
    have h2 : ∀ l : List ℝ, (l.map fun x => Real.log x - Real.log x0).sum = (l.map Real.log).sum - l.length * Real.log x0 := by
      intro l
      induction l with
      | nil => simp
      | cons a t ih =>
        simp only [List.map_cons, List.sum_cons, List.length_cons, Nat.cast_add, Nat.cast_one] at ih ⊢
        rw [ih]
        ring
    rw [h1, h2]
    field_simp
  have he : s.length / (s.map fun x => Real.log (x / x0)).sum = 1 / ((s.map Real.log).sum / s.length - Real.log x0) := by
    rw [hsum]
    rw [div_mul_eq_div_div, div_self hn.ne']
  rw [he]
  have hp := one_div_pos.2 hv
  have hML : MlFam.pareto.MostLikely s (1 / ((s.map Real.log).sum / s.length - Real.log x0), x0) := by
    refine (h.iff ⟨(1, x0), one_pos, h0p, le_rfl⟩ _).2 ⟨⟨hp, h0p, le_rfl⟩, fun q hq => ?_⟩
    exact rate_max (g := fun m : ℝ => Real.log x0 - Real.log m) (m := x0) (V := fun t => 0 < t ∧ t ≤ x0) hv (by simp)
      (fun t ht => sub_nonneg.2 (Real.log_le_log ht.1 ht.2)) q hq.1 hq.2
  constructor
  · intro hp'
    exact (ml_unique .pareto s hin ⟨x, hx, y, hy, hxy⟩).unique hp' hML
  · rintro rfl
    exact hML

example : MlFam.pareto.MostLikely [1, Real.exp 1] (2, 1) := by
  have he : (1 : ℝ) < Real.exp 1 := Real.one_lt_exp_iff.2 one_pos
  refine (pareto_ml_closed [1, Real.exp 1] ?_ ⟨1, by simp, Real.exp 1, by simp, he.ne⟩ 1 (by simp) ?_ _).2 ?_
  · intro x hx
    simp only [List.mem_cons, List.not_mem_nil, or_false] at hx
    rcases hx with rfl | rfl
    · norm_num
    · exact Real.exp_pos 1
  · intro x hx
    simp only [List.mem_cons, List.not_mem_nil, or_false] at hx
    rcases hx with rfl | rfl
    · exact le_rfl
    · exact he.le
  · simp

/-! ## Cauchy -/

private theorem cauchy_lik (s : List ℝ) {p : ℝ × ℝ} (hp : 0 < p.2) :
    lik (cauchyPdf p.1 p.2) s = Real.exp (-(s.length * Real.log Real.pi) - hypObj s p) := by
  have hpi := Real.pi_pos
  have hv : ∀ x, cauchyPdf p.1 p.2 x = 1 / (Real.pi * hyp p x) := by
    intro x
    unfold cauchyPdf hyp
    field_simp
    ring
  have hpos : ∀ x ∈ s, 0 < cauchyPdf p.1 p.2 x := by
    intro x _
    rw [hv]
    have := hyp_pos hp x
    positivity
  rw [← Real.exp_log (lik_pos hpos), log_lik hpos]
  congr 1
  unfold hypObj
  clear hpos
  induction s with
  | nil => simp
  | cons a t ih =>
    simp only [List.map_cons, List.sum_cons, List.length_cons, Nat.cast_add, Nat.cast_one] at ih ⊢
    rw [ih, hv, one_div, Real.log_inv, Real.log_mul hpi.ne' (hyp_pos hp a).ne']
    ring

private theorem cauchy_le (s : List ℝ) {p q : ℝ × ℝ} (hp : 0 < p.2) (hq : 0 < q.2) :
    lik (cauchyPdf q.1 q.2) s ≤ lik (cauchyPdf p.1 p.2) s ↔ hypObj s p ≤ hypObj s q := by
  rw [cauchy_lik s hp, cauchy_lik s hq, Real.exp_le_exp]
  constructor <;> intro h <;> linarith

/-- C139: if no value makes up half of the sample or more, there is exactly one most likely Cauchy distribution. -/
theorem cauchy_ml_unique (s : List ℝ) (hs : s ≠ []) (hc : ∀ c ∈ s, 2 * s.count c < s.length) :
    ∃! p : ℝ × ℝ, Best (fun p => 0 < p.2) (fun p => cauchyPdf p.1 p.2) s p := by
  obtain ⟨p, hp, hm⟩ := hyp_exists s hs hc
  obtain ⟨x, hx, y, hy, z, hz, hxy, hxz, hyz⟩ := three_values s hs hc
  refine ⟨p, ⟨hp, fun q hq => (cauchy_le s hp hq).2 (hm q hq)⟩, ?_⟩
  rintro q ⟨hq, hqm⟩
  exact hyp_unique hx hy hz hxy hxz hyz hq hp (fun r hr => (cauchy_le s hq hr).1 (hqm r hr)) hm

example : ∃! p : ℝ × ℝ, Best (fun p => 0 < p.2) (fun p => cauchyPdf p.1 p.2) [0, 1, 5] p :=
  cauchy_ml_unique _ (by simp) (by
    intro c hc
    simp only [List.mem_cons, List.not_mem_nil, or_false] at hc
    rcases hc with rfl | rfl | rfl <;> simp [List.count_cons] <;> norm_num)

/-- C139: if one value makes up more than half of the sample, Cauchy distributions can make the sample as likely as one
likes. -/
theorem cauchy_ml_unbounded (s : List ℝ) (c : ℝ) (hc : s.length < 2 * s.count c) (M : ℝ) :
    ∃ a b, 0 < b ∧ M < lik (cauchyPdf a b) s := by
  obtain ⟨p, hp, h⟩ := hyp_unbounded s hc (-(s.length * Real.log Real.pi) - Real.log (|M| + 1))
  refine ⟨p.1, p.2, hp, ?_⟩
  rw [cauchy_lik s hp]
  have h1 : Real.log (|M| + 1) < -(s.length * Real.log Real.pi) - hypObj s p := by linarith
  have h2 := Real.exp_lt_exp.2 h1
  rw [Real.exp_log (by positivity)] at h2
  have := le_abs_self M
  linarith

example : ∃ a b, 0 < b ∧ 1000 < lik (cauchyPdf a b) [1, 1, 4] :=
  cauchy_ml_unbounded _ 1 (by simp [List.count_cons]) 1000

/-- C139: for two different values the most likely Cauchy distributions are those on the half circle above them: there are
infinitely many. -/
theorem cauchy_ml_two (x y : ℝ) (hxy : x < y) (p : ℝ × ℝ) :
    Best (fun p => 0 < p.2) (fun p => cauchyPdf p.1 p.2) [x, y] p ↔ 0 < p.2 ∧ p.2 ^ 2 = (p.1 - x) * (y - p.1) := by
  have hprod : ∀ q : ℝ × ℝ, 0 < q.2 → hyp q x * hyp q y = (y - x) ^ 2 + ((q.2 ^ 2 - (q.1 - x) * (y - q.1)) / q.2) ^ 2 := by
    intro q hq
    unfold hyp
    field_simp
    ring
  have hobj : ∀ q : ℝ × ℝ, 0 < q.2 → hypObj [x, y] q = Real.log (hyp q x * hyp q y) := by
    intro q hq
    rw [Real.log_mul (hyp_pos hq x).ne' (hyp_pos hq y).ne']
    simp [hypObj]
  have hd : 0 < (y - x) ^ 2 := by
    have := sub_pos.2 hxy
    positivity
  constructor
  · rintro ⟨hp, hm⟩
    refine ⟨hp, ?_⟩
    have h0 : 0 < (((x + y) / 2, (y - x) / 2) : ℝ × ℝ).2 := by simp only; linarith
    have h := (cauchy_le _ hp h0).1 (hm _ h0)
    rw [hobj _ hp, hobj _ h0, hprod _ hp, hprod _ h0] at h
    have hz : ((y - x) / 2) ^ 2 - ((x + y) / 2 - x) * (y - (x + y) / 2) = 0 := by ring
    simp only [hz, zero_div] at h
    have h2 := (Real.log_le_log_iff (by positivity) (by positivity)).1 h
    have h3 : ((p.2 ^ 2 - (p.1 - x) * (y - p.1)) / p.2) ^ 2 = 0 := le_antisymm (by linarith) (sq_nonneg _)
    have h4 := (div_eq_zero_iff.1 (pow_eq_zero_iff two_ne_zero |>.1 h3)).resolve_right hp.ne'
    linarith
  · rintro ⟨hp, he⟩
    refine ⟨hp, fun q hq => (cauchy_le _ hp hq).2 ?_⟩
    rw [hobj _ hp, hobj _ hq, hprod _ hp, hprod _ hq, he]
    simp only [sub_self, zero_div]
    refine Real.log_le_log (by positivity) ?_
    have := sq_nonneg ((q.2 ^ 2 - (q.1 - x) * (y - q.1)) / q.2)
    linarith

example : Best (fun p : ℝ × ℝ => 0 < p.2) (fun p => cauchyPdf p.1 p.2) [0, 10] (5, 5) ∧
    Best (fun p : ℝ × ℝ => 0 < p.2) (fun p => cauchyPdf p.1 p.2) [0, 10] (2, 4) :=
  ⟨(cauchy_ml_two 0 10 (by norm_num) _).2 ⟨by norm_num, by norm_num⟩,
    (cauchy_ml_two 0 10 (by norm_num) _).2 ⟨by norm_num, by norm_num⟩⟩

/-! ## HalfCauchy -/

private theorem halfCauchy_lik (s : List ℝ) (hin : ∀ x ∈ s, 0 ≤ x) {b : ℝ} (hb : 0 < b) :
    lik (halfCauchyPdf b) s = Real.exp (s.length * Real.log (2 / Real.pi) - hypObj s (0, b)) := by
  have hpi := Real.pi_pos
  have hv : ∀ x, 0 ≤ x → halfCauchyPdf b x = 2 / Real.pi * (1 / hyp (0, b) x) := by
    intro x hx
    unfold halfCauchyPdf hyp
    rw [if_neg (not_lt.2 hx)]
    simp only [sub_zero]
    field_simp
    ring
  have hpos : ∀ x ∈ s, 0 < halfCauchyPdf b x := by
    intro x hx
    rw [hv x (hin x hx)]
    have := hyp_pos (p := (0, b)) hb x
    positivity
  rw [← Real.exp_log (lik_pos hpos), log_lik hpos]
  congr 1
  unfold hypObj
  clear hpos
  induction s with
  | nil => simp
  | cons a t ih =>
    have ih := ih fun x hx => hin x (List.mem_cons_of_mem _ hx)
    simp only [List.map_cons, List.sum_cons, List.length_cons, Nat.cast_add, Nat.cast_one] at ih ⊢
    rw [ih, hv a (hin a List.mem_cons_self), Real.log_mul (by positivity) (by have := hyp_pos (p := (0, b)) hb a; positivity),
      one_div, Real.log_inv]
    ring

/-- C139: for data that are not negative a most likely HalfCauchy distribution exists exactly if fewer than half of the values
are zero, and then it is the only one. -/
theorem halfCauchy_ml (s : List ℝ) (hs : s ≠ []) (hin : ∀ x ∈ s, 0 ≤ x) :
    ((∃ b, Best (fun b => 0 < b) halfCauchyPdf s b) ↔ 2 * s.count 0 < s.length) ∧
    ((∃ b, Best (fun b => 0 < b) halfCauchyPdf s b) → ∃! b, Best (fun b => 0 < b) halfCauchyPdf s b) := by
  have hle : ∀ b c, 0 < b → 0 < c → (lik (halfCauchyPdf c) s ≤ lik (halfCauchyPdf b) s ↔ hypObj s (0, b) ≤ hypObj s (0, c)) := by
    intro b c hb hc
    rw [halfCauchy_lik s hin hb, halfCauchy_lik s hin hc, Real.exp_le_exp]
    constructor <;> intro h <;> linarith
  have hiff : (∃ b, Best (fun b => 0 < b) halfCauchyPdf s b) ↔ 2 * s.count 0 < s.length := by
    constructor
    · rintro ⟨b, hb, hm⟩
      by_contra h
      have h1 := half_none s hs (not_lt.1 h) hb
      have h2 := (hle b (b / 2) hb (half_pos hb)).1 (hm _ (half_pos hb))
      linarith
    · intro h
      obtain ⟨b, hb, hm⟩ := half_exists s hs h
      exact ⟨b, hb, fun q hq => (hle b q hb hq).2 (hm q hq)⟩
  refine ⟨hiff, ?_⟩
  rintro ⟨b, hb, hm⟩
  have hz : ∃ x ∈ s, x ≠ 0 := by
    by_contra h
    push Not at h
    have h1 : s.count 0 = s.length := List.count_eq_length.2 fun x hx => (h x hx).symm
    have h2 := hiff.1 ⟨b, hb, hm⟩
    omega
  obtain ⟨x, hx, hx0⟩ := hz
  refine ⟨b, ⟨hb, hm⟩, ?_⟩
  rintro c ⟨hc, hcm⟩
  exact half_unique hx hx0 hc hb (fun r hr => (hle c r hc hr).1 (hcm r hr)) fun r hr => (hle b r hb hr).1 (hm r hr)

example : (∃! b, Best (fun b => 0 < b) halfCauchyPdf [0, 1, 2] b) ∧ ¬ ∃ b, Best (fun b => 0 < b) halfCauchyPdf [0, 3] b := by
  have h1 := halfCauchy_ml [0, 1, 2] (by simp) (by
    intro x hx
    simp only [List.mem_cons, List.not_mem_nil, or_false] at hx
    rcases hx with rfl | rfl | rfl <;> norm_num)
  have h2 := halfCauchy_ml [0, 3] (by simp) (by
    intro x hx
    simp only [List.mem_cons, List.not_mem_nil, or_false] at hx
    rcases hx with rfl | rfl <;> norm_num)
  refine ⟨h1.2 (h1.1.2 ?_), fun h => ?_⟩
  · simp [List.count_cons]
  · have := h2.1.1 h
    simp [List.count_cons] at this

/-! ## ChiSquared -/

/-- C139: every sample of positive numbers has exactly one most likely ChiSquared distribution. -/
theorem chiSquared_ml_unique (s : List ℝ) (hs : s ≠ []) (hin : ∀ x ∈ s, 0 < x) :
    ∃! n, Best (fun n => 0 < n) chiSquaredPdf s n := by
  set L := (s.map Real.log).sum / s.length with hL
  have hn : (0 : ℝ) < s.length := by exact_mod_cast List.length_pos_iff.2 hs
  set Z : ℝ → ℝ → ℝ := fun a b => Real.Gamma a / b ^ a with hZ
  have hpos : ∀ n, 0 < n → ∀ x ∈ s, 0 < chiSquaredPdf n x := by
    intro n hn' x hx
    have hx := hin x hx
    unfold chiSquaredPdf
    rw [if_pos hx]
    have := Real.Gamma_pos_of_pos (half_pos hn')
    positivity
  have hval : ∀ n, 0 < n → Real.log (lik (chiSquaredPdf n) s) =
      s.length * expObj Z L 0 (n / 2, 1 / 2) + (s.map fun x => -Real.log x - x / 2).sum := by
    intro n hn'
    have hG := Real.Gamma_pos_of_pos (half_pos hn')
    rw [log_lik (hpos n hn')]
    have h3 : (s.map fun x => Real.log (chiSquaredPdf n x)) = s.map fun x => n / 2 * Real.log x -
        Real.log (Z (n / 2) (1 / 2)) + (-Real.log x - x / 2) := by
      refine List.map_congr_left fun x hx => ?_
      have hx := hin x hx
      have hxp := Real.rpow_pos_of_pos hx ((n - 2) / 2)
      have h2p := Real.rpow_pos_of_pos (show (0 : ℝ) < 2 by norm_num) (n / 2)
      have hz : Z (n / 2) (1 / 2) = 2 ^ (n / 2) * Real.Gamma (n / 2) := by
        simp only [hZ]
        rw [one_div, Real.inv_rpow (by norm_num), div_inv_eq_mul, mul_comm]
      rw [hz]
      unfold chiSquaredPdf
      rw [if_pos hx, Real.log_div (by positivity) (by positivity), Real.log_mul hxp.ne' (Real.exp_pos _).ne', Real.log_exp,
        Real.log_rpow hx]
      ring
    rw [h3]
    have h4 : ∀ l : List ℝ, (l.map fun x => n / 2 * Real.log x - Real.log (Z (n / 2) (1 / 2)) + (-Real.log x - x / 2)).sum =
        n / 2 * (l.map Real.log).sum - l.length * Real.log (Z (n / 2) (1 / 2)) + (l.map fun x => -Real.log x - x / 2).sum := by
      intro l
      induction l with
      | nil => simp
      | cons a t ih =>
        simp only [List.map_cons, List.sum_cons, List.length_cons, Nat.cast_add, Nat.cast_one] at ih ⊢
        rw [ih]
        ring
    rw [h4]
    unfold expObj
    simp only [mul_zero, add_zero]
    have : (s.map Real.log).sum = s.length * L := by rw [hL]; field_simp
    rw [this]
    ring
  have hle : ∀ n m, 0 < n → 0 < m → (lik (chiSquaredPdf m) s ≤ lik (chiSquaredPdf n) s ↔
      expObj Z L 0 (m / 2, 1 / 2) ≤ expObj Z L 0 (n / 2, 1 / 2)) := by
    intro n m hn' hm
    rw [← Real.log_le_log_iff (lik_pos (hpos m hm)) (lik_pos (hpos n hn')), hval m hm, hval n hn', add_le_add_iff_right,
      mul_le_mul_iff_right₀ hn]
  obtain ⟨a, ha, hm⟩ := gammaFam.exists_slice (b0 := 1 / 2) (L1 := L) (u := Real.exp (L + 1)) (v := Real.exp (L + 2)) (δ := 1)
    (by norm_num) (Real.exp_lt_exp.2 (by linarith)) one_pos (fun x hx => (Real.exp_pos _).trans_le hx.1) (fun x hx => by
      have := Real.log_le_log (Real.exp_pos _) hx.1
      rwa [Real.log_exp] at this)
  have hbest : ∀ n, Best (fun n => 0 < n) chiSquaredPdf s n ↔
      0 < n ∧ ∀ r, 0 < r → expObj Z L 0 (r, 1 / 2) ≤ expObj Z L 0 (n / 2, 1 / 2) := by
    intro n
    constructor
    · rintro ⟨h1, h2⟩
      refine ⟨h1, fun r hr => ?_⟩
      have h3 := (hle n (2 * r) h1 (by linarith)).1 (h2 _ (by linarith))
      rwa [show 2 * r / 2 = r by ring] at h3
    · rintro ⟨h1, h2⟩
      exact ⟨h1, fun q hq => (hle n q h1 hq).2 (h2 _ (half_pos hq))⟩
  refine ⟨2 * a, (hbest _).2 ⟨by linarith, ?_⟩, ?_⟩
  · rw [show 2 * a / 2 = a by ring]
    exact hm
  · intro n hb
    obtain ⟨h1, h2⟩ := (hbest n).1 hb
    have := gammaFam.unique_slice (b0 := 1 / 2) (by norm_num) (half_pos h1) ha h2 hm
    linarith

example : ∃! n, Best (fun n => 0 < n) chiSquaredPdf [7] n := chiSquared_ml_unique [7] (by simp) (by simp)

/-! ## StudentT and HalfStudentT -/

private theorem student_at (s : List ℝ) (c : ℝ) (hc : c ∈ s) (M : ℝ) :
    ∃ n σ, 0 < n ∧ 0 < σ ∧ M < lik (studentPdf n c σ) s := by
  have hs : s ≠ [] := List.ne_nil_of_mem hc
  have hn : (1 : ℝ) ≤ s.length := by exact_mod_cast List.length_pos_iff.2 hs
  set n : ℝ := 1 / (2 * s.length) with hnd
  have hn0 : 0 < n := by positivity
  have hnn : s.length * n = 1 / 2 := by rw [hnd]; field_simp
  obtain ⟨K, hK1, hK⟩ : ∃ K : ℝ, 1 ≤ K ∧ ∀ x ∈ s, 1 + (x - c) ^ 2 / n ≤ K := by
    clear_value n
    clear hnn hn hs hc hnd
    induction s with
    | nil => exact ⟨1, le_rfl, by simp⟩
    | cons a t ih =>
      obtain ⟨K, h1, h2⟩ := ih
      refine ⟨max K (1 + (a - c) ^ 2 / n), h1.trans (le_max_left _ _), ?_⟩
      intro x hx
      rcases List.mem_cons.1 hx with rfl | hx
      · exact le_max_right _ _
      · exact (h2 x hx).trans (le_max_left _ _)
  set A := Real.Gamma ((n + 1) / 2) / (√(n * Real.pi) * Real.Gamma (n / 2)) with hA
  have hA0 : 0 < A := by
    have := Real.Gamma_pos_of_pos (show 0 < (n + 1) / 2 by positivity)
    have := Real.Gamma_pos_of_pos (show 0 < n / 2 by positivity)
    have := Real.sqrt_pos.2 (show 0 < n * Real.pi by positivity)
    positivity
  have hpdf : ∀ σ, 0 < σ → ∀ x, studentPdf n c σ x = A / σ * (1 + ((x - c) / σ) ^ 2 / n) ^ (-(n + 1) / 2) := by
    intro σ hσ x
    unfold studentPdf
    rw [hA]
    field_simp
  have hpos : ∀ σ, 0 < σ → ∀ x ∈ s, 0 < studentPdf n c σ x := by
    intro σ hσ x _
    rw [hpdf σ hσ]
    have := Real.rpow_pos_of_pos (show 0 < 1 + ((x - c) / σ) ^ 2 / n by positivity) (-(n + 1) / 2)
    positivity
  have hlow : ∀ σ, 0 < σ → σ < 1 → s.length * (Real.log A - (n + 1) / 2 * Real.log K) - 1 / 2 * Real.log σ ≤
      Real.log (lik (studentPdf n c σ) s) := by
    intro σ hσ hσ1
    have hlσ := Real.log_neg hσ hσ1
    have hlK := Real.log_nonneg hK1
    rw [log_lik (hpos σ hσ)]
    have h1 : (s.map fun x => if x = c then Real.log A - (n + 1) / 2 * Real.log K - Real.log σ else
        Real.log A - (n + 1) / 2 * Real.log K + n * Real.log σ).sum ≤ (s.map fun x => Real.log (studentPdf n c σ x)).sum := by
      refine sum_le_map fun x hx => ?_
      have hb : 0 < 1 + ((x - c) / σ) ^ 2 / n := by positivity
      rw [hpdf σ hσ, Real.log_mul (by positivity) (Real.rpow_pos_of_pos hb _).ne', Real.log_div hA0.ne' hσ.ne',
        Real.log_rpow hb]
      split_ifs with h
      · subst h
        simp only [sub_self, zero_div, ne_eq, OfNat.ofNat_ne_zero, not_false_eq_true, zero_pow, add_zero, Real.log_one, mul_zero]
        have : 0 ≤ (n + 1) / 2 * Real.log K := by positivity
        linarith
      · have h2 : 1 + ((x - c) / σ) ^ 2 / n ≤ K / σ ^ 2 := by
          rw [le_div_iff₀ (by positivity)]
          have h3 : (1 + ((x - c) / σ) ^ 2 / n) * σ ^ 2 = σ ^ 2 + (x - c) ^ 2 / n := by field_simp
          rw [h3]
          have := hK x hx
          nlinarith
        have h4 := Real.log_le_log hb h2
        rw [Real.log_div (by linarith) (by positivity), Real.log_pow] at h4
        push_cast at h4
        have h5 := mul_le_mul_of_nonneg_left h4 (show 0 ≤ (n + 1) / 2 by positivity)
        nlinarith
    refine le_trans ?_ h1
    rw [sum_count]
    have hk1 : (1 : ℝ) ≤ s.count c := by exact_mod_cast List.count_pos_iff.2 hc
    have hkn : (s.count c : ℝ) ≤ s.length := by exact_mod_cast List.count_le_length
    have h6 : (s.length - s.count c : ℝ) * n ≤ 1 / 2 := by
      rw [← hnn]
      nlinarith
    nlinarith
  set B := s.length * (Real.log A - (n + 1) / 2 * Real.log K) with hB
  set t := 2 * (Real.log (|M| + 1) + |B|) + 1 with ht
  have ht0 : 0 < t := by
    have := Real.log_nonneg (show (1 : ℝ) ≤ |M| + 1 by linarith [abs_nonneg M])
    positivity
  have h := hlow (Real.exp (-t)) (Real.exp_pos _) (by rw [Real.exp_lt_one_iff]; linarith)
  rw [Real.log_exp] at h
  refine ⟨n, Real.exp (-t), hn0, Real.exp_pos _, ?_⟩
  have h7 : Real.log (|M| + 1) < Real.log (lik (studentPdf n c (Real.exp (-t))) s) := by
    have := neg_abs_le B
    linarith
  have h8 := (Real.log_lt_log_iff (by positivity) (lik_pos (hpos _ (Real.exp_pos _)))).1 h7
  have := le_abs_self M
  linarith

/-- C139: StudentT distributions can make any sample as likely as one likes: there is no most likely one. -/
theorem student_ml_unbounded (s : List ℝ) (hs : s ≠ []) (M : ℝ) :
    ∃ n m σ, 0 < n ∧ 0 < σ ∧ M < lik (studentPdf n m σ) s := by
  obtain ⟨c, hc⟩ := List.exists_mem_of_ne_nil s hs
  obtain ⟨n, σ, h1, h2, h3⟩ := student_at s c hc M
  exact ⟨n, c, σ, h1, h2, h3⟩

/-- C139: so no StudentT distribution is the most likely one, whatever the sample. -/
theorem student_ml_none (s : List ℝ) (hs : s ≠ []) :
    ¬ ∃ p : ℝ × ℝ × ℝ, Best (fun p => 0 < p.1 ∧ 0 < p.2.2) (fun p => studentPdf p.1 p.2.1 p.2.2) s p := by
  rintro ⟨p, -, hm⟩
  obtain ⟨n, m, σ, h1, h2, h3⟩ := student_ml_unbounded s hs (lik (studentPdf p.1 p.2.1 p.2.2) s)
  exact absurd (hm (n, m, σ) ⟨h1, h2⟩) (not_le.2 h3)

example : ∃ n m σ, 0 < n ∧ 0 < σ ∧ 1000 < lik (studentPdf n m σ) [-1, 0, 3, 8] := student_ml_unbounded _ (by simp) _

/-- C139: the same for HalfStudentT as soon as the sample contains a zero. -/
theorem halfStudent_ml_unbounded (s : List ℝ) (hin : ∀ x ∈ s, 0 ≤ x) (h0 : 0 ∈ s) (M : ℝ) :
    ∃ n σ, 0 < n ∧ 0 < σ ∧ M < lik (halfStudentPdf n σ) s := by
  obtain ⟨n, σ, hn, hσ, h⟩ := student_at s 0 h0 |M|
  refine ⟨n, σ, hn, hσ, ?_⟩
  have hv : ∀ x ∈ s, halfStudentPdf n σ x = 2 * studentPdf n 0 σ x := by
    intro x hx
    unfold halfStudentPdf studentPdf
    rw [if_neg (not_lt.2 (hin x hx)), Real.sqrt_mul' _ (sq_nonneg _), Real.sqrt_sq hσ.le, sub_zero,
      show 1 + 1 / n * (x ^ 2 / σ ^ 2) = 1 + (x / σ) ^ 2 / n by field_simp, show -((n + 1) / 2) = -(n + 1) / 2 by ring]
    ring
  have hpos : ∀ x ∈ s, 0 < studentPdf n 0 σ x := by
    intro x _
    unfold studentPdf
    have := Real.Gamma_pos_of_pos (show 0 < (n + 1) / 2 by positivity)
    have := Real.Gamma_pos_of_pos (show 0 < n / 2 by positivity)
    have := Real.sqrt_pos.2 (show 0 < n * Real.pi by positivity)
    have := Real.rpow_pos_of_pos (show 0 < 1 + ((x - 0) / σ) ^ 2 / n by positivity) (-(n + 1) / 2)
    positivity
  have hlog : Real.log (lik (studentPdf n 0 σ) s) ≤ Real.log (lik (halfStudentPdf n σ) s) := by
    rw [log_lik hpos, log_lik fun x hx => by rw [hv x hx]; have := hpos x hx; positivity]
    refine sum_le_map fun x hx => ?_
    have := hpos x hx
    rw [hv x hx]
    exact Real.log_le_log this (by linarith)
  have h2 := (Real.log_le_log_iff (lik_pos hpos) (lik_pos fun x hx => by rw [hv x hx]; have := hpos x hx; positivity)).1 hlog
  have := le_abs_self M
  linarith

example : ∃ n σ, 0 < n ∧ 0 < σ ∧ 1000 < lik (halfStudentPdf n σ) [0, 3, 8] :=
  halfStudent_ml_unbounded _ (by
    intro x hx
    simp only [List.mem_cons, List.not_mem_nil, or_false] at hx
    rcases hx with rfl | rfl | rfl <;> norm_num) (by simp) _

end Verif.Props
