import Verif.Lemmas.MlHalfStudent
import Verif.Props.MlExist
import Verif.Props.MlRun
import Verif.Props.Mle
import Mathlib.Tactic

/-!
# C153: most likely HalfStudentT distributions
-/

set_option linter.unusedSimpArgs false

namespace Verif.Props
open Verif Verif.Param Verif.NumFit Verif.Refit Verif.Spec Verif.Ml Verif.MlHalf Set Filter Topology

/-- the parameters of a HalfStudentT: both positive -/
private abbrev Pos2 : ℝ × ℝ → Prop := fun p => 0 < p.1 ∧ 0 < p.2

private theorem lik_weight (f : ℝ → ℝ) (s : List ℝ) : lik (fun x => x * f x) s = s.prod * lik f s := by
  unfold lik
  induction s with
  | nil => simp
  | cons a t ih => simp only [List.map_cons, List.prod_cons, ih]; ring

private theorem prod_pos' {s : List ℝ} (h : ∀ x ∈ s, 0 < x) : 0 < s.prod := by
  have := lik_pos (f := fun x => x) h
  simpa [lik] using this

private theorem lik_le_one {f : ℝ → ℝ} {s : List ℝ} (h : ∀ x ∈ s, 0 ≤ f x ∧ f x ≤ 1) : 0 ≤ lik f s ∧ lik f s ≤ 1 := by
  unfold lik
  induction s with
  | nil => simp
  | cons a t ih =>
    obtain ⟨h1, h2⟩ := ih fun x hx => h x (List.mem_cons_of_mem _ hx)
    obtain ⟨h3, h4⟩ := h a (by simp)
    simp only [List.map_cons, List.prod_cons]
    exact ⟨mul_nonneg h3 h1, mul_le_one₀ h4 h1 h2⟩

private theorem lik_le_mul {f g : ℝ → ℝ} {s : List ℝ} {c : ℝ} (hc : 0 ≤ c) (h : ∀ x ∈ s, 0 ≤ f x ∧ 0 ≤ g x ∧ f x ≤ g x * c) :
    0 ≤ lik f s ∧ 0 ≤ lik g s ∧ lik f s ≤ lik g s * c ^ s.length := by
  unfold lik
  induction s with
  | nil => simp
  | cons a t ih =>
    obtain ⟨h1, h2, h3⟩ := ih fun x hx => h x (List.mem_cons_of_mem _ hx)
    obtain ⟨h4, h5, h6⟩ := h a (by simp)
    simp only [List.map_cons, List.prod_cons, List.length_cons]
    refine ⟨mul_nonneg h4 h1, mul_nonneg h5 h2, (mul_le_mul h6 h3 h1 (mul_nonneg h5 hc)).trans (le_of_eq ?_)⟩
    ring

private theorem lik_tendsto {f : ℝ → ℝ → ℝ} {g : ℝ → ℝ} {s : List ℝ} (h : ∀ x ∈ s, Tendsto (fun n => f n x) atTop (𝓝 (g x))) :
    Tendsto (fun n => lik (f n) s) atTop (𝓝 (lik g s)) := by
  unfold lik
  induction s with
  | nil => simp
  | cons a t ih =>
    simp only [List.map_cons, List.prod_cons]
    exact (h a (by simp)).mul (ih fun x hx => h x (List.mem_cons_of_mem _ hx))

private theorem lik_cont {s : List ℝ} (h : ∀ x ∈ s, 0 < x) :
    ContinuousOn (fun p : ℝ × ℝ => lik (halfStudentPdf p.1 p.2) s) {p | 0 < p.1 ∧ 0 < p.2} := by
  unfold lik
  induction s with
  | nil => simpa using continuousOn_const
  | cons a t ih =>
    simp only [List.map_cons, List.prod_cons]
    exact (student_cont (h a (by simp))).mul (ih fun x hx => h x (List.mem_cons_of_mem _ hx))

/-- **C153**: at a positive value every HalfStudentT density is smaller than that of the HalfNormal whose sigma is the value. -/
theorem halfStudent_below (n sigma x : ℝ) (hn : 0 < n) (hs : 0 < sigma) (hx : 0 < x) :
    halfStudentPdf n sigma x < halfNormalPdf x x := by
  have h0 : 0 < x ^ 2 / sigma ^ 2 := by positivity
  have h1 : x * halfStudentPdf n sigma x < x * halfNormalPdf x x := by
    rw [pdf_eq hn hs hx, normal_eq hx hx, div_self (by positivity)]
    calc top n * bell n (x ^ 2 / sigma ^ 2) < top n * Real.exp (-(1 / 2)) := mul_lt_mul_of_pos_left (bell_lt hn h0) (top_pos hn)
      _ ≤ topN * Real.exp (-(1 / 2)) := mul_le_mul_of_nonneg_right (top_le hn) (Real.exp_pos _).le
      _ = x * (topN / x * Real.exp (-1 / 2)) := by
        rw [← mul_assoc, mul_div_cancel₀ _ hx.ne', neg_div]
  exact lt_of_mul_lt_mul_left h1 hx.le

/-- **C153**: with ever more degrees of freedom the likelihood tends to that of the HalfNormal with the same sigma. -/
theorem halfStudent_limit (s : List ℝ) (hs : ∀ x ∈ s, 0 < x) (sigma : ℝ) (h : 0 < sigma) :
    Tendsto (fun n => lik (halfStudentPdf n sigma) s) atTop (𝓝 (lik (halfNormalPdf sigma) s)) :=
  lik_tendsto fun x hx => student_tendsto h (hs x hx)

/-- **C153**: a sample of positive values has a most likely HalfStudentT exactly if some HalfStudentT makes it at least as likely
as every HalfNormal does. -/
theorem halfStudent_ml_iff (s : List ℝ) (hne : s ≠ []) (hs : ∀ x ∈ s, 0 < x) :
    (∃ p : ℝ × ℝ, Best (fun p => 0 < p.1 ∧ 0 < p.2) (fun p => halfStudentPdf p.1 p.2) s p) ↔
      ∃ n sigma, 0 < n ∧ 0 < sigma ∧ ∀ tau, 0 < tau → lik (halfNormalPdf tau) s ≤ lik (halfStudentPdf n sigma) s := by
  constructor
  · rintro ⟨p, ⟨h1, h2⟩, hb⟩
    refine ⟨p.1, p.2, h1, h2, fun tau ht => ?_⟩
    refine le_of_tendsto (halfStudent_limit s hs tau ht) ?_
    filter_upwards [eventually_gt_atTop 0] with n hn
    exact hb (n, tau) ⟨hn, ht⟩
  · rintro ⟨n, sigma, hn, hsg, hP⟩
    by_cases hbest : Best Pos2 (fun p => halfStudentPdf p.1 p.2) s (n, sigma)
    · exact ⟨_, hbest⟩
    obtain ⟨q, ⟨hq1, hq2⟩, hq⟩ : ∃ q : ℝ × ℝ, Pos2 q ∧ lik (halfStudentPdf n sigma) s < lik (halfStudentPdf q.1 q.2) s := by
      by_contra hc
      push Not at hc
      exact hbest ⟨⟨hn, hsg⟩, fun q hq => hc q hq⟩
    set M := lik (halfStudentPdf n sigma) s with hM
    set L := lik (halfStudentPdf q.1 q.2) s with hL
    have hLpos : 0 < L := lik_pos fun x hx => pdf_pos hq1 hq2 (hs x hx)
    have hprod : 0 < s.prod := prod_pos' hs
    obtain ⟨x0, t, rfl⟩ := List.exists_cons_of_ne_nil hne
    have hx0 : 0 < x0 := hs x0 (by simp)
    obtain ⟨n0, s0, s1, hn0, hs0, hs1, hdec⟩ := decay (mul_pos hprod hLpos)
    -- outside a bounded region
    have hout : ∀ p : ℝ × ℝ, Pos2 p → (p.1 < n0 ∨ x0 ^ 2 / p.2 ^ 2 < s0 ∨ s1 < x0 ^ 2 / p.2 ^ 2) →
        lik (halfStudentPdf p.1 p.2) (x0 :: t) ≤ L := by
      rintro p ⟨hp1, hp2⟩ h
      have h1 := hdec p.1 (x0 ^ 2 / p.2 ^ 2) hp1 (by positivity) h
      rw [← pdf_eq hp1 hp2 hx0] at h1
      have h2 := lik_le_one (f := fun x => x * halfStudentPdf p.1 p.2 x) (s := t) fun x hx => by
        have hx' := hs x (List.mem_cons_of_mem _ hx)
        exact ⟨mul_nonneg hx'.le (pdf_pos hp1 hp2 hx').le, by
          rw [pdf_eq hp1 hp2 hx']; exact weight_le_one hp1 (by positivity)⟩
      have h3 : (x0 :: t).prod * lik (halfStudentPdf p.1 p.2) (x0 :: t) ≤ (x0 :: t).prod * L := by
        rw [← lik_weight]
        calc lik (fun x => x * halfStudentPdf p.1 p.2 x) (x0 :: t)
            = x0 * halfStudentPdf p.1 p.2 x0 * lik (fun x => x * halfStudentPdf p.1 p.2 x) t := by simp [lik]
          _ ≤ (x0 :: t).prod * L * 1 := mul_le_mul h1 h2.2 h2.1 (mul_pos hprod hLpos).le
          _ = _ := mul_one _
      exact le_of_mul_le_mul_left h3 hprod
    set σ0 := x0 / √s1 with hσ0
    set σ1 := x0 / √s0 with hσ1
    have hσ0p : 0 < σ0 := div_pos hx0 (Real.sqrt_pos.2 hs1)
    have hsmall : ∀ σ, 0 < σ → σ < σ0 → s1 < x0 ^ 2 / σ ^ 2 := by
      intro σ h1 h2
      rw [hσ0, lt_div_iff₀ (Real.sqrt_pos.2 hs1)] at h2
      have h3 := pow_lt_pow_left₀ h2 (by positivity) (two_ne_zero)
      rw [mul_pow, Real.sq_sqrt hs1.le] at h3
      rw [lt_div_iff₀ (by positivity)]
      linarith
    have hlarge : ∀ σ, 0 < σ → σ1 < σ → x0 ^ 2 / σ ^ 2 < s0 := by
      intro σ h1 h2
      rw [hσ1, div_lt_iff₀ (Real.sqrt_pos.2 hs0)] at h2
      have h3 := pow_lt_pow_left₀ h2 hx0.le (two_ne_zero)
      rw [mul_pow, Real.sq_sqrt hs0.le] at h3
      rw [div_lt_iff₀ (by positivity)]
      linarith
    -- many degrees of freedom
    set S := ((x0 :: t).map fun x => x ^ 2).sum / σ0 ^ 2 with hS
    have hSx : ∀ σ, σ0 ≤ σ → ∀ x ∈ x0 :: t, x ^ 2 / σ ^ 2 ≤ S := by
      intro σ h x hx
      have h1 : x ^ 2 ≤ ((x0 :: t).map fun x => x ^ 2).sum :=
        List.single_le_sum (by
          intro y hy
          obtain ⟨z, -, rfl⟩ := List.mem_map.1 hy
          positivity) _ (List.mem_map.2 ⟨x, hx, rfl⟩)
      exact div_le_div₀ ((sq_nonneg x).trans h1) h1 (by positivity) (pow_le_pow_left₀ hσ0p.le h 2)
    have hlim : Tendsto (fun n : ℝ => M * Real.exp (S ^ 2 / (2 * n)) ^ (x0 :: t).length) atTop
        (𝓝 (M * Real.exp 0 ^ (x0 :: t).length)) := by
      refine (Tendsto.pow ((Real.continuous_exp.tendsto 0).comp ?_) _).const_mul _
      exact tendsto_const_nhds.div_atTop (tendsto_id.const_mul_atTop two_pos)
    rw [Real.exp_zero, one_pow, mul_one] at hlim
    obtain ⟨N, hN⟩ := eventually_atTop.1 (hlim.eventually (gt_mem_nhds hq))
    have hfar : ∀ p : ℝ × ℝ, Pos2 p → N ≤ p.1 → σ0 ≤ p.2 → lik (halfStudentPdf p.1 p.2) (x0 :: t) ≤ L := by
      rintro p ⟨hp1, hp2⟩ h1 h2
      have h3 := (lik_le_mul (f := halfStudentPdf p.1 p.2) (g := halfNormalPdf p.2) (s := x0 :: t)
        (c := Real.exp (S ^ 2 / (2 * p.1))) (Real.exp_pos _).le fun x hx =>
        ⟨(pdf_pos hp1 hp2 (hs x hx)).le, (normal_pos hp2 (hs x hx)).le,
          student_le_normal hp1 hp2 (hs x hx) (hSx p.2 h2 x hx)⟩).2.2
      have h4 := mul_le_mul_of_nonneg_right (hP p.2 hp2)
        (show 0 ≤ Real.exp (S ^ 2 / (2 * p.1)) ^ (x0 :: t).length by positivity)
      exact (h3.trans h4).trans (hN p.1 h1).le
    -- the rest is compact
    set K : Set (ℝ × ℝ) := insert q (Icc n0 N ×ˢ Icc σ0 σ1) with hK
    have hKc : IsCompact K := (isCompact_Icc.prod isCompact_Icc).insert q
    have hKp : ∀ p ∈ K, Pos2 p := by
      intro p hp
      rcases hp with rfl | ⟨h1, h2⟩
      · exact ⟨hq1, hq2⟩
      · exact ⟨hn0.trans_le h1.1, hσ0p.trans_le h2.1⟩
    obtain ⟨r, hr, hmax⟩ := hKc.exists_isMaxOn ⟨q, mem_insert _ _⟩ ((lik_cont hs).mono hKp)
    have hLr : L ≤ lik (halfStudentPdf r.1 r.2) (x0 :: t) := hmax (mem_insert q _)
    refine ⟨r, hKp r hr, fun p hp => ?_⟩
    by_cases a1 : p.1 < n0
    · exact (hout p hp (.inl a1)).trans hLr
    by_cases a2 : p.2 < σ0
    · exact (hout p hp (.inr (.inr (hsmall _ hp.2 a2)))).trans hLr
    by_cases a3 : σ1 < p.2
    · exact (hout p hp (.inr (.inl (hlarge _ hp.2 a3)))).trans hLr
    by_cases a4 : N ≤ p.1
    · exact (hfar p hp a4 (not_lt.1 a2)).trans hLr
    · exact hmax (mem_insert_of_mem _ ⟨⟨not_lt.1 a1, (not_le.1 a4).le⟩, ⟨not_lt.1 a2, not_lt.1 a3⟩⟩)

/-- **C153**: a constant sample has no most likely HalfStudentT: every one is beaten by the HalfNormal whose sigma is the value,
and the likelihood comes as near to that as one likes. -/
theorem halfStudent_ml_constant (s : List ℝ) (hne : s ≠ []) (c : ℝ) (hc : 0 < c) (hs : ∀ x ∈ s, x = c) :
    (∀ n sigma, 0 < n → 0 < sigma → lik (halfStudentPdf n sigma) s < lik (halfNormalPdf c) s) ∧
    (∀ M, M < lik (halfNormalPdf c) s → ∃ n, 0 < n ∧ M < lik (halfStudentPdf n c) s) ∧
    ¬ ∃ p : ℝ × ℝ, Best (fun p => 0 < p.1 ∧ 0 < p.2) (fun p => halfStudentPdf p.1 p.2) s p := by
  have hpos : ∀ x ∈ s, 0 < x := fun x hx => by rw [hs x hx]; exact hc
  have h1 : ∀ n sigma, 0 < n → 0 < sigma → lik (halfStudentPdf n sigma) s < lik (halfNormalPdf c) s := by
    intro n sigma hn hsg
    have hrep : s = List.replicate s.length c := List.eq_replicate_iff.2 ⟨rfl, hs⟩
    rw [hrep]
    simp only [lik, List.map_replicate, List.prod_replicate]
    exact pow_lt_pow_left₀ (halfStudent_below n sigma c hn hsg hc) (pdf_pos hn hsg hc).le
      (List.length_pos_iff.2 hne).ne'
  refine ⟨h1, fun M hM => ?_, fun hb => ?_⟩
  · obtain ⟨n, hn, h⟩ := ((eventually_gt_atTop (0 : ℝ)).and
      ((halfStudent_limit s hpos c hc).eventually (lt_mem_nhds hM))).exists
    exact ⟨n, hn, h⟩
  · obtain ⟨n, sigma, hn, hsg, h⟩ := (halfStudent_ml_iff s hne hpos).1 hb
    exact absurd (h c hc) (not_le.2 (h1 n sigma hn hsg))

/-- **C153**: and a sample with a zero has none either. -/
theorem halfStudent_ml_zero (s : List ℝ) (hs : ∀ x ∈ s, 0 ≤ x) (h0 : 0 ∈ s) :
    ¬ ∃ p : ℝ × ℝ, Best (fun p => 0 < p.1 ∧ 0 < p.2) (fun p => halfStudentPdf p.1 p.2) s p := by
  rintro ⟨p, -, hb⟩
  obtain ⟨n, sigma, hn, hsg, h⟩ := halfStudent_ml_unbounded s hs h0 (lik (halfStudentPdf p.1 p.2) s)
  exact absurd (hb (n, sigma) ⟨hn, hsg⟩) (not_le.2 h)

private theorem sum_affine (s : List ℝ) (a b c d : ℝ) (g : ℝ → ℝ) :
    (s.map fun x => a - g x * b + g x ^ 2 * c - g x ^ 3 * d).sum =
      s.length * a - (s.map g).sum * b + (s.map fun x => g x ^ 2).sum * c - (s.map fun x => g x ^ 3).sum * d := by
  induction s with
  | nil => simp
  | cons x t ih =>
    simp only [List.map_cons, List.sum_cons, List.length_cons, ih]
    push_cast
    ring

private theorem sum_div_sq (s : List ℝ) (c : ℝ) (k : ℕ) :
    (s.map fun x => (x ^ 2 / c) ^ k).sum = (s.map fun x => x ^ (2 * k)).sum / c ^ k := by
  induction s with
  | nil => simp
  | cons x t ih =>
    rw [List.map_cons, List.sum_cons, ih, List.map_cons, List.sum_cons, div_pow, ← pow_mul, add_div]

/-- **C153**: samples with heavy tails: if the mean of the fourth powers exceeds three times the square of the mean square, there is a
most likely HalfStudentT, and it makes the sample more likely than every HalfNormal. -/
theorem halfStudent_ml_heavy (s : List ℝ) (hne : s ≠ []) (hs : ∀ x ∈ s, 0 < x)
    (h4 : 3 * (s.map fun x : ℝ => x ^ 2).sum ^ 2 < (s.length : ℝ) * (s.map fun x : ℝ => x ^ 4).sum) :
    ∃ p : ℝ × ℝ, Best (fun p => 0 < p.1 ∧ 0 < p.2) (fun p => halfStudentPdf p.1 p.2) s p ∧
      ∀ tau, 0 < tau → lik (halfNormalPdf tau) s < lik (halfStudentPdf p.1 p.2) s := by
  have hk : (0 : ℝ) < s.length := by exact_mod_cast List.length_pos_iff.2 hne
  have hm : 0 < (s.map fun x : ℝ => x ^ 2).sum := by
    refine List.sum_pos _ ?_ (by simpa using hne)
    intro y hy
    obtain ⟨x, hx, rfl⟩ := List.mem_map.1 hy
    exact pow_pos (hs x hx) 2
  set m : ℝ := (s.map fun x : ℝ => x ^ 2).sum / (s.length : ℝ) with hmd
  have hm0 : 0 < m := by positivity
  set sigma := √m with hsd
  have hsg : 0 < sigma := Real.sqrt_pos.2 hm0
  have hsq : sigma ^ 2 = m := Real.sq_sqrt hm0.le
  have hN : ∀ tau, 0 < tau → lik (halfNormalPdf tau) s ≤ lik (halfNormalPdf sigma) s := fun tau ht =>
    halfnormal_fit_optimal_partial s (fun x hx => (hs x hx).le) sigma (by
      have : s.length ≠ 0 := (List.length_pos_iff.2 hne).ne'
      unfold Mle.halfNormalFit Mle.npMean
      simp [hne, hsd, hmd]) hsg tau ht
  -- the sums of the scaled squares
  set g : ℝ → ℝ := fun x => x ^ 2 / sigma ^ 2 with hg
  have hg1 : (s.map g).sum = s.length := by
    have := sum_div_sq s (sigma ^ 2) 1
    simp only [pow_one, mul_one] at this
    rw [hg, this, hsq, hmd]
    field_simp
  set Q := (s.map fun x => g x ^ 2).sum with hQ
  set R := (s.map fun x => g x ^ 3).sum with hR
  have hQ3 : 3 * s.length < Q := by
    have := sum_div_sq s (sigma ^ 2) 2
    rw [hQ, hg, this, hsq, hmd, div_pow, div_div_eq_mul_div, lt_div_iff₀ (by positivity)]
    have := mul_lt_mul_of_pos_left h4 hk
    norm_num
    nlinarith
  -- the difference of the logarithms, times n
  have hlim : Tendsto (fun n : ℝ => -(s.length * (1 / (2 * (2 - 1 / n)))) - s.length / 2 + Q / 4 - R * (1 + 1 / n) / 6 / n) atTop
      (𝓝 (-(s.length * (1 / (2 * (2 - 0)))) - s.length / 2 + Q / 4 - 0)) := by
    have hz : Tendsto (fun n : ℝ => 1 / n) atTop (𝓝 0) := tendsto_const_nhds.div_atTop tendsto_id
    refine Tendsto.sub (Tendsto.add (Tendsto.sub ?_ tendsto_const_nhds) tendsto_const_nhds) ?_
    · refine (Tendsto.const_mul _ (Tendsto.div tendsto_const_nhds ?_ (by norm_num))).neg
      exact (tendsto_const_nhds.sub hz).const_mul 2
    · refine Tendsto.div_atTop (a := R * (1 + 0) / 6) ?_ tendsto_id
      exact ((tendsto_const_nhds.add hz).const_mul R).div_const 6
  have hpos : 0 < -((s.length : ℝ) * (1 / (2 * (2 - 0)))) - s.length / 2 + Q / 4 - 0 := by
    norm_num
    linarith
  obtain ⟨n, hn, hgt⟩ := ((eventually_gt_atTop (1 : ℝ)).and (hlim.eventually (lt_mem_nhds hpos))).exists
  have hn0 : 0 < n := by linarith
  have hmore : lik (halfNormalPdf sigma) s < lik (halfStudentPdf n sigma) s := by
    have p1 : ∀ x ∈ s, 0 < halfNormalPdf sigma x := fun x hx => normal_pos hsg (hs x hx)
    have p2 : ∀ x ∈ s, 0 < halfStudentPdf n sigma x := fun x hx => pdf_pos hn0 hsg (hs x hx)
    rw [← Real.log_lt_log_iff (lik_pos p1) (lik_pos p2), log_lik p1, log_lik p2]
    have h1 : (s.map fun x => Real.log (halfNormalPdf sigma x) +
        (-(1 / (2 * (2 * n - 1))) - g x * (1 / (2 * n)) + g x ^ 2 * (1 / (4 * n)) - g x ^ 3 * ((n + 1) / (6 * n ^ 3)))).sum ≤
        (s.map fun x => Real.log (halfStudentPdf n sigma x)).sum := by
      refine sum_le_map fun x hx => ?_
      have := log_gap (n := n) (by linarith) hsg (hs x hx)
      have e1 : g x * (1 / (2 * n)) = x ^ 2 / sigma ^ 2 / (2 * n) := by rw [hg]; ring
      have e2 : g x ^ 2 * (1 / (4 * n)) = (x ^ 2 / sigma ^ 2) ^ 2 / (4 * n) := by rw [hg]; ring
      have e3 : g x ^ 3 * ((n + 1) / (6 * n ^ 3)) = (x ^ 2 / sigma ^ 2) ^ 3 * (n + 1) / (6 * n ^ 3) := by rw [hg]; ring
      rw [e1, e2, e3]
      linarith
    rw [List.sum_map_add, sum_affine, hg1] at h1
    have h2 : 0 < (s.length : ℝ) * -(1 / (2 * (2 * n - 1))) - s.length * (1 / (2 * n)) + Q * (1 / (4 * n)) -
        R * ((n + 1) / (6 * n ^ 3)) := by
      have h3 : (s.length : ℝ) * -(1 / (2 * (2 * n - 1))) - s.length * (1 / (2 * n)) + Q * (1 / (4 * n)) -
          R * ((n + 1) / (6 * n ^ 3)) =
          (-(s.length * (1 / (2 * (2 - 1 / n)))) - s.length / 2 + Q / 4 - R * (1 + 1 / n) / 6 / n) / n := by
        have : 2 * n - 1 ≠ 0 := by linarith
        have e : (2 : ℝ) - 1 / n = (2 * n - 1) / n := by field_simp
        rw [e]
        field_simp
      rw [h3]
      positivity
    linarith
  obtain ⟨p, hp⟩ := (halfStudent_ml_iff s hne hs).2 ⟨n, sigma, hn0, hsg, fun tau ht => (hN tau ht).trans hmore.le⟩
  exact ⟨p, hp, fun tau ht => (hN tau ht).trans_lt (hmore.trans_le (hp.2 (n, sigma) ⟨hn0, hsg⟩))⟩

/-! ## mle -/

private theorem hs_box (k : Kit) (hb : OwnBounds k .halfStudentT) (names : List String) (x : List ℝ) :
    InBox (k.box .halfStudentT names) x ↔ ∃ a b, x = [a, b] ∧ eps ≤ a ∧ eps ≤ b := by
  have h1 := box_eq (l := [(((eps : ℝ) : EReal), ⊤), (((eps : ℝ) : EReal), ⊤)]) (hb names)
  rw [h1, inBox_pair]
  simp only [EReal.coe_le_coe_iff, le_top, and_true]

private theorem hs_run (k : Kit) (hb : OwnBounds k .halfStudentT) (hm : FindsMinimum k.minimize)
    (hlp : ∀ nu sigma, 0 < nu → 0 < sigma → ∀ x, k.logpdf .halfStudentT [some nu, some sigma] x = Real.log (halfStudentPdf nu sigma x))
    (s : List ℝ) (hs : ∀ x ∈ s, 0 < x) (o d : Obj) (hx : o.names ∈ exactNames .halfStudentT) (h : fitMle k .halfStudentT s o = .ok d) :
    ∃ nu sigma, eps ≤ nu ∧ eps ≤ sigma ∧ law .halfStudentT d = [some nu, some sigma] ∧
      ∀ n t, eps ≤ n → eps ≤ t → lik (halfStudentPdf n t) s ≤ lik (halfStudentPdf nu sigma) s := by
  have he : (0 : ℝ) < eps := by unfold eps; positivity
  obtain ⟨x, hxin, hl, hmin⟩ := run_min_any k .halfStudentT (by decide) hm s o d hx h (by
    intro y o1 hn1 hy
    obtain ⟨a, b, rfl, -⟩ := (hs_box k hb _ y).1 hy
    simp only [exactNames, List.mem_cons, List.not_mem_nil, or_false] at hx
    simp [hn1, hx, Gives, update, law, lawAttrs, halfStudentTUpdate, Obj.setAll, Obj.set, Function.update])
  obtain ⟨nu, sigma, rfl, h1, h2⟩ := (hs_box k hb _ x).1 hxin
  refine ⟨nu, sigma, h1, h2, hl, fun n t hn ht => ?_⟩
  have h3 := hmin [n, t] ((hs_box k hb _ _).2 ⟨_, _, rfl, hn, ht⟩)
  simp only [List.map_cons, List.map_nil, hlp _ _ (he.trans_le hn) (he.trans_le ht), hlp _ _ (he.trans_le h1) (he.trans_le h2)] at h3
  have p1 : ∀ x ∈ s, 0 < halfStudentPdf n t x := fun x hx => pdf_pos (he.trans_le hn) (he.trans_le ht) (hs x hx)
  have p2 : ∀ x ∈ s, 0 < halfStudentPdf nu sigma x := fun x hx => pdf_pos (he.trans_le h1) (he.trans_le h2) (hs x hx)
  rwa [← log_lik p1, ← log_lik p2, Real.log_le_log_iff (lik_pos p1) (lik_pos p2)] at h3

/-- **C153**: whenever a most likely HalfStudentT is within the bounds, mle leaves the object with a most likely one. -/
theorem halfStudent_ml_run (k : Kit) (hb : OwnBounds k .halfStudentT) (hm : FindsMinimum k.minimize)
    (hlp : ∀ nu sigma, 0 < nu → 0 < sigma → ∀ x, k.logpdf .halfStudentT [some nu, some sigma] x = Real.log (halfStudentPdf nu sigma x))
    (s : List ℝ) (hs : ∀ x ∈ s, 0 < x) (o d : Obj) (hx : o.names ∈ exactNames .halfStudentT) (h : fitMle k .halfStudentT s o = .ok d)
    (p : ℝ × ℝ) (hp : Best (fun p : ℝ × ℝ => 0 < p.1 ∧ 0 < p.2) (fun p => halfStudentPdf p.1 p.2) s p)
    (hn : eps ≤ p.1 ∧ eps ≤ p.2) :
    ∃ nu sigma, law .halfStudentT d = [some nu, some sigma] ∧
      Best (fun p : ℝ × ℝ => 0 < p.1 ∧ 0 < p.2) (fun p => halfStudentPdf p.1 p.2) s (nu, sigma) := by
  have he : (0 : ℝ) < eps := by unfold eps; positivity
  obtain ⟨nu, sigma, h1, h2, hl, hmax⟩ := hs_run k hb hm hlp s hs o d hx h
  exact ⟨nu, sigma, hl, ⟨he.trans_le h1, he.trans_le h2⟩, fun q hq => (hp.2 q hq).trans (hmax p.1 p.2 hn.1 hn.2)⟩

/-- **C153**: for a constant sample an optimiser that only returns minima within the bounds never returns, so mle does not either. -/
theorem halfStudent_ml_stuck (k : Kit) (hb : OwnBounds k .halfStudentT) (hm : FindsMinimum k.minimize)
    (hlp : ∀ nu sigma, 0 < nu → 0 < sigma → ∀ x, k.logpdf .halfStudentT [some nu, some sigma] x = Real.log (halfStudentPdf nu sigma x))
    (s : List ℝ) (hne : s ≠ []) (c : ℝ) (hc : eps ≤ c) (hs : ∀ x ∈ s, x = c) (o d : Obj)
    (hx : o.names ∈ exactNames .halfStudentT) : fitMle k .halfStudentT s o ≠ .ok d := by
  intro h
  have he : (0 : ℝ) < eps := by unfold eps; positivity
  have hc0 := he.trans_le hc
  have hpos : ∀ x ∈ s, 0 < x := fun x hx => by rw [hs x hx]; exact hc0
  obtain ⟨nu, sigma, h1, h2, hl, hmax⟩ := hs_run k hb hm hlp s hpos o d hx h
  have h3 := (halfStudent_ml_constant s hne c hc0 hs).1 nu sigma (he.trans_le h1) (he.trans_le h2)
  obtain ⟨n, hn, h4⟩ := ((eventually_ge_atTop eps).and
    ((halfStudent_limit s hpos c hc0).eventually (lt_mem_nhds h3))).exists
  exact absurd (hmax n c hn hc) (not_le.2 h4)

/-! The hypotheses are met. -/

/-- nine ones and a ten have heavy tails, a constant sample has not -/
example : ∃ p : ℝ × ℝ, Best (fun p => 0 < p.1 ∧ 0 < p.2) (fun p => halfStudentPdf p.1 p.2) [1, 1, 1, 1, 1, 1, 1, 1, 1, 10] p ∧
    ∀ tau, 0 < tau → lik (halfNormalPdf tau) [1, 1, 1, 1, 1, 1, 1, 1, 1, 10] <
      lik (halfStudentPdf p.1 p.2) [1, 1, 1, 1, 1, 1, 1, 1, 1, 10] := by
  refine halfStudent_ml_heavy _ (by simp) ?_ ?_
  · intro x hx
    simp only [List.mem_cons, List.not_mem_nil, or_false] at hx
    rcases hx with rfl | rfl | rfl | rfl | rfl | rfl | rfl | rfl | rfl | rfl <;> norm_num
  · norm_num

example : ¬ ∃ p : ℝ × ℝ, Best (fun p => 0 < p.1 ∧ 0 < p.2) (fun p => halfStudentPdf p.1 p.2) [2, 2, 2] p :=
  (halfStudent_ml_constant [2, 2, 2] (by simp) 2 two_pos (by simp)).2.2

example : ¬ ∃ p : ℝ × ℝ, Best (fun p => 0 < p.1 ∧ 0 < p.2) (fun p => halfStudentPdf p.1 p.2) [0, 3] p :=
  halfStudent_ml_zero [0, 3] (by simp) (by simp)

end Verif.Props
