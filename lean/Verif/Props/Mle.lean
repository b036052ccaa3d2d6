import Verif.Model.Mle
import Verif.Spec.Likelihood
import Mathlib.Probability.Distributions.Gaussian.Real
import Mathlib.Tactic

/-!
# C57, C58: sample mean and deviation, and closed-form maximum-likelihood fits
-/

set_option linter.unusedSimpArgs false

namespace Verif.Props
open Verif Verif.Mle Verif.Spec

/-! ## C57 -/

private theorem foldl_sq (f : ℝ → ℝ) (l : List ℝ) (a : ℝ) :
    l.foldl (fun acc x => acc + f x) a = a + (l.map f).sum := by
  induction l generalizing a with
  | nil => simp
  | cons x l ih => simp [ih]; ring

/-- the population mean -/
noncomputable def popMean (l : List ℝ) : ℝ := l.sum / l.length

/-- the population variance: the mean squared distance from the mean -/
noncomputable def popVar (l : List ℝ) : ℝ := (l.map fun x => (x - popMean l) ^ 2).sum / l.length

private theorem sum_sq_nonneg (l : List ℝ) (c : ℝ) : 0 ≤ (l.map fun x => (x - c) ^ 2).sum := by
  apply List.sum_nonneg
  intro y hy
  obtain ⟨x, -, rfl⟩ := List.mem_map.1 hy
  positivity

theorem popVar_nonneg (l : List ℝ) : 0 ≤ popVar l := by
  unfold popVar
  have := sum_sq_nonneg l (popMean l)
  positivity

/-- `mean_and_std` returns the population mean and standard deviation; empty data raises. -/
theorem mean_and_std_value (l : List ℝ) (hl : l ≠ []) : meanAndStd l = .ok (popMean l, √(popVar l)) := by
  have hn : (l.length : ℝ) ≠ 0 := by simpa using hl
  have hv : 0 ≤ (0 + (l.map fun x => (x - l.sum / l.length) ^ 2).sum) / (l.length : ℝ) := by
    have := sum_sq_nonneg l (l.sum / l.length)
    rw [zero_add]; positivity
  simp only [meanAndStd, pyDiv_ok hn, Except.ok_bind', foldl_sq, pySqrt_ok hv]
  simp [popVar, popMean]

theorem mean_and_std_empty : meanAndStd [] = .error .zeroDivision := by
  simp [meanAndStd, pyDiv]

private theorem sum_map_add (l : List ℝ) (c : ℝ) : (l.map (· + c)).sum = l.sum + l.length * c := by
  induction l with
  | nil => simp
  | cons x l ih => simp [ih]; ring

private theorem sum_map_mul (l : List ℝ) (c : ℝ) : (l.map (c * ·)).sum = c * l.sum := by
  induction l with
  | nil => simp
  | cons x l ih => simp only [List.map_cons, List.sum_cons, ih]; ring

/-- Shifting the data shifts the mean and keeps the deviation. -/
theorem mean_and_std_shift (l : List ℝ) (hl : l ≠ []) (c m s : ℝ) (h : meanAndStd l = .ok (m, s)) :
    meanAndStd (l.map (· + c)) = .ok (m + c, s) := by
  rw [mean_and_std_value l hl] at h
  rw [mean_and_std_value _ (by simpa using hl)]
  injection h with h; injection h with h1 h2
  subst h1 h2
  have hn : (l.length : ℝ) ≠ 0 := by simpa using hl
  have hm : popMean (l.map (· + c)) = popMean l + c := by
    unfold popMean; rw [sum_map_add, List.length_map]; field_simp
  have hv : popVar (l.map (· + c)) = popVar l := by
    unfold popVar
    rw [hm, List.length_map, List.map_map]
    congr 2
    apply List.map_congr_left
    intro x _
    simp
  rw [hm, hv]

/-- Scaling the data scales the mean, and the deviation by the absolute value. -/
theorem mean_and_std_scale (l : List ℝ) (hl : l ≠ []) (c m s : ℝ) (h : meanAndStd l = .ok (m, s)) :
    meanAndStd (l.map (c * ·)) = .ok (c * m, |c| * s) := by
  rw [mean_and_std_value l hl] at h
  rw [mean_and_std_value _ (by simpa using hl)]
  injection h with h; injection h with h1 h2
  subst h1 h2
  have hm : popMean (l.map (c * ·)) = c * popMean l := by
    unfold popMean; rw [sum_map_mul, List.length_map]; ring
  have hv : popVar (l.map (c * ·)) = c ^ 2 * popVar l := by
    unfold popVar
    rw [hm, List.length_map, List.map_map, ← mul_div_assoc, ← sum_map_mul, List.map_map]
    congr 2
    apply List.map_congr_left
    intro x _
    simp only [Function.comp]; ring
  rw [hm, hv, Real.sqrt_mul (sq_nonneg c), Real.sqrt_sq_eq_abs]

/-! ## C58: Normal and its transforms -/

private theorem sum_sq_split (l : List ℝ) (hl : l ≠ []) (c : ℝ) :
    (l.map fun x => (x - c) ^ 2).sum = l.length * popVar l + l.length * (popMean l - c) ^ 2 := by
  have hn : (l.length : ℝ) ≠ 0 := by simpa using hl
  have h : ∀ (k : List ℝ) (a : ℝ), (k.map fun x => (x - a) ^ 2).sum =
      (k.map fun x => x ^ 2).sum - 2 * a * k.sum + k.length * a ^ 2 := by
    intro k a
    induction k with
    | nil => simp
    | cons x k ih => simp only [List.map_cons, List.sum_cons, ih, List.length_cons]; push_cast; ring
  have hv : l.length * popVar l = (l.map fun x => (x - popMean l) ^ 2).sum := by
    unfold popVar; field_simp
  have hs : l.sum = l.length * popMean l := by unfold popMean; field_simp
  rw [hv, h l c, h l (popMean l), hs]; ring

private theorem core (s σ : ℝ) (hs : 0 < s) (hσ : 0 < σ) :
    1 / σ * Real.exp (-s ^ 2 / (2 * σ ^ 2)) ≤ 1 / s * Real.exp (-s ^ 2 / (2 * s ^ 2)) := by
  have e1 : -s ^ 2 / (2 * s ^ 2) = -(1 / 2) := by field_simp
  rw [e1]
  set t := s / σ with ht
  have e2 : -s ^ 2 / (2 * σ ^ 2) = -(1 / 2) - (t ^ 2 - 1) / 2 := by rw [ht]; field_simp; ring
  have e3 : 1 / σ = t / s := by rw [ht]; field_simp
  have h1 : t ≤ Real.exp ((t ^ 2 - 1) / 2) := by
    have := Real.add_one_le_exp ((t ^ 2 - 1) / 2)
    nlinarith [sq_nonneg (t - 1)]
  rw [e2, e3, Real.exp_sub, div_mul_div_comm, mul_div_right_comm]
  apply mul_le_mul_of_nonneg_right _ (Real.exp_pos _).le
  rw [div_le_div_iff₀ (by positivity) hs]
  nlinarith

private theorem lik_exp {α : Type} (f k : α → ℝ) (c : ℝ) (g : α → ℝ) (l : List α)
    (h : ∀ x ∈ l, f x = k x * c * Real.exp (g x)) :
    lik f l = (l.map k).prod * c ^ l.length * Real.exp (l.map g).sum := by
  induction l with
  | nil => simp [lik]
  | cons x l ih =>
    have ih := ih fun y hy => h y (List.mem_cons_of_mem _ hy)
    unfold lik at ih ⊢
    simp only [List.map_cons, List.prod_cons, List.sum_cons, List.length_cons, ih,
      h x List.mem_cons_self, Real.exp_add, pow_succ]
    ring

private theorem sum_neg_div {α : Type} (l : List α) (g : α → ℝ) (d : ℝ) :
    (l.map fun x => -g x / d).sum = -(l.map g).sum / d := by
  induction l with
  | nil => simp
  | cons x l ih => simp only [List.map_cons, List.sum_cons, ih]; ring

/-- the core comparison: total squared deviations `q`, at least `n s²` -/
private theorem kernel (n : ℕ) (s σ q r : ℝ) (hs : 0 < s) (hσ : 0 < σ) (hq : n * s ^ 2 ≤ q) (hr : 0 ≤ r) :
    (1 / (σ * r)) ^ n * Real.exp (-q / (2 * σ ^ 2)) ≤
      (1 / (s * r)) ^ n * Real.exp (-(n * s ^ 2) / (2 * s ^ 2)) := by
  have h1 : Real.exp (-q / (2 * σ ^ 2)) ≤ Real.exp (-s ^ 2 / (2 * σ ^ 2)) ^ n := by
    rw [← Real.exp_nat_mul]
    apply Real.exp_le_exp.2
    rw [← mul_div_assoc]
    apply div_le_div_of_nonneg_right _ (by positivity)
    nlinarith
  have h2 : Real.exp (-(n * s ^ 2) / (2 * s ^ 2)) = Real.exp (-s ^ 2 / (2 * s ^ 2)) ^ n := by
    rw [← Real.exp_nat_mul]; congr 1; ring
  rw [h2]
  have e : ∀ y : ℝ, 1 / (y * r) = 1 / r * (1 / y) := by intro y; rw [one_div_mul_one_div, mul_comm]
  calc (1 / (σ * r)) ^ n * Real.exp (-q / (2 * σ ^ 2))
      ≤ (1 / (σ * r)) ^ n * Real.exp (-s ^ 2 / (2 * σ ^ 2)) ^ n := by
        apply mul_le_mul_of_nonneg_left h1; positivity
    _ = (1 / r) ^ n * (1 / σ * Real.exp (-s ^ 2 / (2 * σ ^ 2))) ^ n := by
        rw [e, mul_pow, mul_pow]; ring
    _ ≤ (1 / r) ^ n * (1 / s * Real.exp (-s ^ 2 / (2 * s ^ 2))) ^ n := by
        apply mul_le_mul_of_nonneg_left _ (by positivity)
        exact pow_le_pow_left₀ (by positivity) (core s σ hs hσ) n
    _ = _ := by rw [e, mul_pow, mul_pow]; ring

/-- any density that is a positive factor times a normal density of a transformed value -/
private theorem transformed_fit (pdf : ℝ → ℝ → ℝ → ℝ) (t k : ℝ → ℝ) (l : List ℝ) (hl : l ≠ [])
    (hk : ∀ x ∈ l, 0 ≤ k x) (hpdf : ∀ μ σ, ∀ x ∈ l, pdf μ σ x = k x * normalPdf μ σ (t x))
    (m s : ℝ) (h : meanAndStd (l.map t) = .ok (m, s)) (hs : 0 < s) (μ σ : ℝ) (hσ : 0 < σ) :
    lik (pdf μ σ) l ≤ lik (pdf m s) l := by
  rw [mean_and_std_value _ (by simpa using hl)] at h
  injection h with h; injection h with h1 h2
  have hv : popVar (l.map t) = s ^ 2 := by rw [← h2, Real.sq_sqrt (popVar_nonneg _)]
  have hlik : ∀ μ σ : ℝ, lik (pdf μ σ) l = (l.map k).prod * ((1 / (σ * √(2 * Real.pi))) ^ l.length *
      Real.exp (-(l.length * s ^ 2 + l.length * (m - μ) ^ 2) / (2 * σ ^ 2))) := by
    intro μ σ
    rw [lik_exp (pdf μ σ) k (1 / (σ * √(2 * Real.pi))) (fun x => -(t x - μ) ^ 2 / (2 * σ ^ 2)) l
      (by intro x hx; rw [hpdf μ σ x hx, normalPdf]; ring), sum_neg_div l (fun x => (t x - μ) ^ 2), mul_assoc]
    have := sum_sq_split (l.map t) (by simpa using hl) μ
    rw [List.map_map, hv, h1, List.length_map] at this
    have e : (fun x => (t x - μ) ^ 2) = ((fun x => (x - μ) ^ 2) ∘ t) := rfl
    rw [e, this]
  rw [hlik, hlik]
  apply mul_le_mul_of_nonneg_left
  · have := kernel l.length s σ (l.length * s ^ 2 + l.length * (m - μ) ^ 2) (√(2 * Real.pi)) hs hσ
      (by have : (0:ℝ) ≤ l.length * (m - μ) ^ 2 := by positivity
          linarith) (by positivity)
    simpa using this
  · apply List.prod_nonneg
    intro y hy
    obtain ⟨x, hx, rfl⟩ := List.mem_map.1 hy
    exact hk x hx

/-- Normal: no mean and no positive deviation gives a sample with some spread a larger likelihood than the
fitted ones. -/
theorem normal_fit_optimal_partial (l : List ℝ) (hl : l ≠ []) (m s : ℝ) (h : normalFit l = .ok (m, s))
    (hs : 0 < s) (μ σ : ℝ) (hσ : 0 < σ) : lik (normalPdf μ σ) l ≤ lik (normalPdf m s) l :=
  transformed_fit normalPdf id (fun _ => 1) l hl (by simp) (by simp) m s (by simpa [normalFit] using h) hs μ σ hσ

/-- the spec density is Mathlib's Gaussian density -/
theorem normalPdf_eq (μ σ x : ℝ) (hσ : 0 < σ) :
    normalPdf μ σ x = ProbabilityTheory.gaussianPDFReal μ (Real.toNNReal (σ ^ 2)) x := by
  simp only [normalPdf, ProbabilityTheory.gaussianPDFReal, Real.coe_toNNReal _ (sq_nonneg σ)]
  rw [Real.sqrt_mul (by positivity) (σ ^ 2), Real.sqrt_sq hσ.le, one_div, mul_comm σ]

/-- the spread is positive unless all values agree -/
theorem fit_spread (l : List ℝ) (m s : ℝ) (h : meanAndStd l = .ok (m, s)) :
    (0 < s ↔ ∃ x ∈ l, ∃ y ∈ l, x ≠ y) ∧ 0 ≤ s := by
  have hl : l ≠ [] := by rintro rfl; simp [mean_and_std_empty] at h
  rw [mean_and_std_value _ hl] at h
  injection h with h; injection h with h1 h2
  have hn : (0 : ℝ) < l.length := by
    have := List.length_pos_iff.2 hl; exact_mod_cast this
  refine ⟨?_, by rw [← h2]; positivity⟩
  rw [← h2, Real.sqrt_pos, popVar, div_pos_iff_of_pos_right hn]
  constructor
  · intro hp
    by_contra hc
    push Not at hc
    obtain ⟨a, ha⟩ := List.exists_mem_of_ne_nil l hl
    have hall : ∀ x ∈ l, x = a := fun x hx => hc x hx a ha
    have hsum : l.sum = l.length * a := by
      rw [List.eq_replicate_of_mem hall]; simp
    have hm : popMean l = a := by unfold popMean; rw [hsum]; field_simp
    have : (l.map fun x => (x - popMean l) ^ 2).sum = 0 := by
      apply List.sum_eq_zero
      intro y hy
      obtain ⟨x, hx, rfl⟩ := List.mem_map.1 hy
      rw [hm, hall x hx]; simp
    linarith
  · rintro ⟨x, hx, y, hy, hxy⟩
    have hne : x ≠ popMean l ∨ y ≠ popMean l := by
      by_contra hc; push Not at hc; exact hxy (hc.1.trans hc.2.symm)
    have key : ∀ z ∈ l, z ≠ popMean l → 0 < (l.map fun x => (x - popMean l) ^ 2).sum := by
      intro z hz hzm
      have h1 : (z - popMean l) ^ 2 ≤ (l.map fun x => (x - popMean l) ^ 2).sum := by
        apply List.single_le_sum
        · intro y hy
          obtain ⟨x, -, rfl⟩ := List.mem_map.1 hy
          positivity
        · exact List.mem_map_of_mem hz
      have : 0 < (z - popMean l) ^ 2 := by
        have := sub_ne_zero.2 hzm; positivity
      linarith
    rcases hne with h | h
    · exact key x hx h
    · exact key y hy h

/-- negation: for a constant sample the fitted deviation is zero, which is not an admissible value, and no
deviation is optimal - halving it always increases the likelihood -/
theorem normal_fit_constant (n : ℕ) (a σ : ℝ) (hσ : 0 < σ) :
    normalFit (List.replicate (n + 1) a) = .ok (a, 0) ∧
    lik (normalPdf a σ) (List.replicate (n + 1) a) < lik (normalPdf a (σ / 2)) (List.replicate (n + 1) a) := by
  constructor
  · have hm : popMean (List.replicate (n + 1) a) = a := by
      unfold popMean; simp; field_simp
    rw [normalFit, mean_and_std_value _ (by simp), hm]
    have : popVar (List.replicate (n + 1) a) = 0 := by
      unfold popVar; rw [hm]; simp
    rw [this]; simp
  · simp only [lik, List.map_replicate, List.prod_replicate, normalPdf, sub_self]
    apply pow_lt_pow_left₀ _ (by positivity) (by simp)
    simp only [ne_eq, OfNat.ofNat_ne_zero, not_false_eq_true, zero_pow, neg_zero, zero_div, Real.exp_zero, mul_one]
    have hp : 0 < √(2 * Real.pi) := by positivity
    rw [div_lt_div_iff₀ (by positivity) (by positivity)]
    nlinarith

/-- LogNormal: samples of positive values -/
theorem lognormal_fit_optimal_partial (l : List ℝ) (hl : l ≠ []) (hpos : ∀ x ∈ l, 0 < x) (m s : ℝ)
    (h : logNormalFit l = .ok (m, s)) (hs : 0 < s) (μ σ : ℝ) (hσ : 0 < σ) :
    lik (logNormalPdf μ σ) l ≤ lik (logNormalPdf m s) l :=
  transformed_fit logNormalPdf Real.log (fun x => 1 / x) l hl
    (fun x hx => by have := hpos x hx; positivity)
    (fun μ σ x _ => by simp only [logNormalPdf, normalPdf]; ring_nf) m s h hs μ σ hσ

/-- LogitNormal: samples inside the unit interval -/
theorem logitnormal_fit_optimal_partial (l : List ℝ) (hl : l ≠ []) (hpos : ∀ x ∈ l, 0 < x ∧ x < 1) (m s : ℝ)
    (h : logitNormalFit l = .ok (m, s)) (hs : 0 < s) (μ σ : ℝ) (hσ : 0 < σ) :
    lik (logitNormalPdf μ σ) l ≤ lik (logitNormalPdf m s) l :=
  transformed_fit logitNormalPdf logit (fun x => 1 / (x * (1 - x))) l hl
    (fun x hx => by
      have := hpos x hx
      have h1 : 0 < 1 - x := by linarith [this.2]
      have := this.1
      positivity)
    (fun μ σ x _ => by
      simp only [logitNormalPdf, normalPdf, logit]
      rw [← mul_assoc, one_div_mul_one_div, ← mul_assoc]) m s h hs μ σ hσ

/-- HalfNormal: samples of non-negative values, not all zero -/
theorem halfnormal_fit_optimal_partial (l : List ℝ) (hpos : ∀ x ∈ l, 0 ≤ x) (s : ℝ)
    (h : halfNormalFit l = some s) (hs : 0 < s) (σ : ℝ) (hσ : 0 < σ) :
    lik (halfNormalPdf σ) l ≤ lik (halfNormalPdf s) l := by
  unfold halfNormalFit npMean at h
  split_ifs at h with hl
  · simp at h
  simp only [Option.map_some, Option.some.injEq, List.length_map] at h
  have hl' : l ≠ [] := by simpa using hl
  have hn : (0 : ℝ) < l.length := by
    have := List.length_pos_iff.2 hl'; exact_mod_cast this
  have hs2 : (l.map fun x => x ^ 2).sum = l.length * s ^ 2 := by
    rw [← h, Real.sq_sqrt]
    · field_simp
    · apply div_nonneg _ hn.le
      simpa using sum_sq_nonneg l 0
  have hlik : ∀ σ : ℝ, lik (halfNormalPdf σ) l = (l.map fun _ => √2).prod *
      ((1 / (σ * √Real.pi)) ^ l.length * Real.exp (-(l.length * s ^ 2) / (2 * σ ^ 2))) := by
    intro σ
    rw [lik_exp (halfNormalPdf σ) (fun _ => √2) (1 / (σ * √Real.pi)) (fun x => -x ^ 2 / (2 * σ ^ 2)) l
      (by intro x hx; rw [halfNormalPdf, if_neg (not_lt.2 (hpos x hx))]; ring),
      sum_neg_div l (fun x => x ^ 2), mul_assoc, hs2]
  rw [hlik, hlik]
  apply mul_le_mul_of_nonneg_left
  · exact kernel l.length s σ _ (√Real.pi) hs hσ le_rfl (by positivity)
  · apply List.prod_nonneg; intro y hy; simp at hy; rw [hy.2]; positivity

/-! ## Exponential, Poisson, Geometric -/

private theorem sum_div_length (l : List ℝ) (hl : l ≠ []) (m : ℝ) (h : npMean l = some m) :
    (0 : ℝ) < l.length ∧ l.sum = l.length * m := by
  have hn : (0 : ℝ) < l.length := by
    have := List.length_pos_iff.2 hl; exact_mod_cast this
  refine ⟨hn, ?_⟩
  simp only [npMean, if_neg hl, Option.some.injEq] at h
  rw [← h]; field_simp

/-- Exponential: samples of non-negative values; the fit exists as soon as one is positive -/
theorem exponential_fit_optimal (l : List ℝ) (hpos : ∀ x ∈ l, 0 ≤ x) (hex : ∃ x ∈ l, 0 < x) :
    ∃ r, exponentialFit l = some r ∧ 0 < r ∧
      ∀ lam, 0 < lam → lik (exponentialPdf lam) l ≤ lik (exponentialPdf r) l := by
  obtain ⟨x, hx, hx0⟩ := hex
  have hl : l ≠ [] := List.ne_nil_of_mem hx
  obtain ⟨m, hm⟩ : ∃ m, npMean l = some m := ⟨_, by simp only [npMean, if_neg hl]; rfl⟩
  obtain ⟨hn, hsum⟩ := sum_div_length l hl m hm
  have hS : 0 < l.sum := lt_of_lt_of_le hx0 (List.single_le_sum hpos x hx)
  have hm0 : 0 < m := by
    rw [hsum] at hS
    exact (mul_pos_iff_of_pos_left hn).1 hS
  refine ⟨1 / m, by simp [exponentialFit, hm, npDiv, hm0.ne'], by positivity, ?_⟩
  intro lam hlam
  have hlik : ∀ lam, lik (exponentialPdf lam) l =
      (lam * Real.exp (-(lam * m))) ^ l.length := by
    intro lam
    rw [lik_exp (exponentialPdf lam) (fun _ => 1) lam (fun x => -(lam * x)) l
      (by intro x hx; rw [exponentialPdf, if_neg (not_lt.2 (hpos x hx))]; ring)]
    have e : (l.map fun x => -(lam * x)).sum = l.length * (-(lam * m)) := by
      have := sum_map_mul l (-lam)
      simp only [neg_mul] at this
      rw [this, hsum]; ring
    rw [e, Real.exp_nat_mul, mul_pow]; simp
  rw [hlik, hlik]
  apply pow_le_pow_left₀ (by positivity)
  have h1 : lam * m ≤ Real.exp (lam * m - 1) := by
    have := Real.add_one_le_exp (lam * m - 1); linarith
  have e : Real.exp (-(1 / m * m)) = Real.exp (lam * m - 1) * Real.exp (-(lam * m)) := by
    rw [← Real.exp_add]; congr 1; field_simp; ring
  rw [e, ← mul_assoc]
  apply mul_le_mul_of_nonneg_right _ (Real.exp_pos _).le
  rw [one_div_mul_eq_div, le_div_iff₀ hm0]
  exact h1

/-- negation: for a sample of zeros there is no fit (the rate is infinite), and doubling the rate always
increases the likelihood -/
theorem exponential_fit_zeros (n : ℕ) (lam : ℝ) (h : 0 < lam) :
    exponentialFit (List.replicate (n + 1) 0) = none ∧
    lik (exponentialPdf lam) (List.replicate (n + 1) 0) <
      lik (exponentialPdf (2 * lam)) (List.replicate (n + 1) 0) := by
  constructor
  · simp [exponentialFit, npMean, npDiv]
  · simp only [lik, List.map_replicate, List.prod_replicate, exponentialPdf]
    simp only [lt_irrefl, if_false, mul_zero, neg_zero, Real.exp_zero, mul_one]
    exact pow_lt_pow_left₀ (by linarith) h.le (by simp)

private theorem cast_sum (l : List ℕ) : (l.map (Nat.cast : ℕ → ℝ)).sum = (l.sum : ℕ) := by
  induction l with
  | nil => simp
  | cons a l ih => simp only [List.map_cons, List.sum_cons, ih]; push_cast; ring

/-- Poisson: every non-empty sample of counts -/
theorem poisson_fit_optimal (l : List ℕ) (hl : l ≠ []) :
    ∃ m, poissonFit l = some m ∧ 0 ≤ m ∧ ∀ mu, 0 < mu → lik (poissonPmf mu) l ≤ lik (poissonPmf m) l := by
  have hl' : l.map (Nat.cast : ℕ → ℝ) ≠ [] := by simpa using hl
  obtain ⟨m, hm⟩ : ∃ m, npMean (l.map (Nat.cast : ℕ → ℝ)) = some m := ⟨_, by simp only [npMean, if_neg hl']; rfl⟩
  obtain ⟨hn, hsum⟩ := sum_div_length _ hl' m hm
  rw [cast_sum, List.length_map] at hsum
  rw [List.length_map] at hn
  have hm0 : 0 ≤ m := by
    have : (0 : ℝ) ≤ (l.sum : ℕ) := by positivity
    rw [hsum] at this
    exact (mul_nonneg_iff_of_pos_left hn).1 this
  refine ⟨m, hm, hm0, ?_⟩
  intro mu hmu
  have hlik : ∀ mu : ℝ, lik (poissonPmf mu) l =
      (l.map fun k => (1 : ℝ) / k.factorial).prod * (Real.exp (-mu) ^ l.length * mu ^ l.sum) := by
    intro mu
    clear hl hl' hm hsum hn
    induction l with
    | nil => simp [lik]
    | cons k l ih =>
      unfold lik at ih ⊢
      simp only [List.map_cons, List.prod_cons, List.sum_cons, List.length_cons, ih, poissonPmf, pow_succ, pow_add]
      ring
  rw [hlik, hlik]
  apply mul_le_mul_of_nonneg_left
  · rcases hm0.eq_or_lt with h0 | h0
    · have hs0 : l.sum = 0 := by
        rw [← h0, mul_zero] at hsum; exact_mod_cast hsum
      rw [hs0, ← h0]
      simp only [pow_zero, mul_one, neg_zero, Real.exp_zero, one_pow]
      exact pow_le_one₀ (Real.exp_pos _).le (by rw [Real.exp_le_one_iff]; linarith)
    · have h1 : mu / m ≤ Real.exp (mu / m - 1) := by
        have := Real.add_one_le_exp (mu / m - 1); linarith
      have h2 : (mu / m) ^ l.sum ≤ Real.exp (mu - m) ^ l.length := by
        calc (mu / m) ^ l.sum ≤ Real.exp (mu / m - 1) ^ l.sum := pow_le_pow_left₀ (by positivity) h1 _
          _ = Real.exp (mu - m) ^ l.length := by
            rw [← Real.exp_nat_mul, ← Real.exp_nat_mul, hsum]
            congr 1; field_simp
      have e1 : mu ^ l.sum = (mu / m) ^ l.sum * m ^ l.sum := by rw [← mul_pow]; field_simp
      have e2 : Real.exp (-m) ^ l.length = Real.exp (-mu) ^ l.length * Real.exp (mu - m) ^ l.length := by
        rw [← mul_pow, ← Real.exp_add]; congr 2; ring
      rw [e1, e2, mul_assoc]
      apply mul_le_mul_of_nonneg_left _ (by positivity)
      exact mul_le_mul_of_nonneg_right h2 (by positivity)
  · apply List.prod_nonneg
    intro y hy
    obtain ⟨k, -, rfl⟩ := List.mem_map.1 hy
    positivity

/-- Geometric: every non-empty sample of positive counts -/
theorem geometric_fit_optimal (l : List ℕ) (hl : l ≠ []) (hpos : ∀ k ∈ l, 1 ≤ k) :
    ∃ q, geometricFit l = some q ∧ 0 < q ∧ q ≤ 1 ∧
      ∀ p, 0 < p → p ≤ 1 → lik (geometricPmf p) l ≤ lik (geometricPmf q) l := by
  have hl' : l.map (Nat.cast : ℕ → ℝ) ≠ [] := by simpa using hl
  obtain ⟨m, hm⟩ : ∃ m, npMean (l.map (Nat.cast : ℕ → ℝ)) = some m := ⟨_, by simp only [npMean, if_neg hl']; rfl⟩
  obtain ⟨hn, hsum⟩ := sum_div_length _ hl' m hm
  rw [cast_sum, List.length_map] at hsum
  rw [List.length_map] at hn
  have hle : l.length ≤ l.sum := by
    clear hl hl' hm hsum hn
    induction l with
    | nil => simp
    | cons k l ih =>
      have := ih fun j hj => hpos j (List.mem_cons_of_mem _ hj)
      have := hpos k List.mem_cons_self
      simp; omega
  have hm1 : 1 ≤ m := by
    have : (l.length : ℝ) ≤ (l.sum : ℕ) := by exact_mod_cast hle
    rw [hsum] at this
    nlinarith
  have hlik : ∀ p : ℝ, lik (geometricPmf p) l = p ^ l.length * (1 - p) ^ (l.sum - l.length) := by
    intro p
    clear hl hl' hm hsum hn
    induction l with
    | nil => simp [lik]
    | cons k l ih =>
      have hpos' := fun j hj => hpos j (List.mem_cons_of_mem _ hj)
      have hle' : l.length ≤ l.sum := by
        clear ih hle
        induction l with
        | nil => simp
        | cons k l ih =>
          have := ih (fun j hj => hpos j (by simp at hj ⊢; tauto)) (fun j hj => hpos' j (List.mem_cons_of_mem _ hj))
          have := hpos' k List.mem_cons_self
          simp; omega
      have hk := hpos k List.mem_cons_self
      have ih := ih hpos' hle'
      unfold lik at ih ⊢
      have e : (k :: l).sum - (k :: l).length = (k - 1) + (l.sum - l.length) := by simp; omega
      rw [e]
      simp only [List.map_cons, List.prod_cons, List.length_cons, ih, geometricPmf]
      rw [if_neg (by omega), pow_add, pow_succ]
      ring
  refine ⟨1 / m, ?_, by positivity, by rw [div_le_one (by linarith)]; exact hm1, ?_⟩
  · have : npMean (l.map Nat.cast) = some m := hm
    simp only [geometricFit, this, Option.bind_some, npDiv, if_neg (by linarith : m ≠ 0)]
  intro p hp hp1
  rw [hlik, hlik]
  have hcast : ((l.sum - l.length : ℕ) : ℝ) = l.length * (m - 1) := by
    rw [Nat.cast_sub hle, hsum]; ring
  rcases hm1.eq_or_lt with h1 | h1
  · have : l.sum - l.length = 0 := by
      rw [← h1, sub_self, mul_zero] at hcast; exact_mod_cast hcast
    rw [this, ← h1]
    simp only [pow_zero, mul_one, div_one, one_pow]
    exact pow_le_one₀ hp.le hp1
  · have hq : 0 < 1 - 1 / m := by
      rw [sub_pos, div_lt_one (by linarith)]; exact h1
    have a1 : p * m ≤ Real.exp (p * m - 1) := by
      have := Real.add_one_le_exp (p * m - 1); linarith
    have a2 : (1 - p) / (1 - 1 / m) ≤ Real.exp ((1 - p) / (1 - 1 / m) - 1) := by
      have := Real.add_one_le_exp ((1 - p) / (1 - 1 / m) - 1); linarith
    have hm0 : 0 < m := by linarith
    have a3 : (p * m) ^ l.length * ((1 - p) / (1 - 1 / m)) ^ (l.sum - l.length) ≤ 1 := by
      calc (p * m) ^ l.length * ((1 - p) / (1 - 1 / m)) ^ (l.sum - l.length)
          ≤ Real.exp (p * m - 1) ^ l.length * Real.exp ((1 - p) / (1 - 1 / m) - 1) ^ (l.sum - l.length) := by
            apply mul_le_mul (pow_le_pow_left₀ (by positivity) a1 _)
              (pow_le_pow_left₀ (div_nonneg (by linarith) hq.le) a2 _)
            · exact pow_nonneg (div_nonneg (by linarith) hq.le) _
            · positivity
        _ = 1 := by
            rw [← Real.exp_nat_mul, ← Real.exp_nat_mul, ← Real.exp_add, hcast, Real.exp_eq_one_iff]
            have : m - 1 ≠ 0 := by linarith
            have e : 1 - 1 / m = (m - 1) / m := by field_simp
            rw [e]
            field_simp
            ring
    have e1 : p ^ l.length = (p * m) ^ l.length * (1 / m) ^ l.length := by
      rw [← mul_pow]; congr 1; field_simp
    have e2 : (1 - p) ^ (l.sum - l.length) =
        ((1 - p) / (1 - 1 / m)) ^ (l.sum - l.length) * (1 - 1 / m) ^ (l.sum - l.length) := by
      rw [← mul_pow]; congr 1; field_simp
    rw [e1, e2]
    calc _ = ((p * m) ^ l.length * ((1 - p) / (1 - 1 / m)) ^ (l.sum - l.length)) *
          ((1 / m) ^ l.length * (1 - 1 / m) ^ (l.sum - l.length)) := by ring
      _ ≤ 1 * ((1 / m) ^ l.length * (1 - 1 / m) ^ (l.sum - l.length)) := by
          apply mul_le_mul_of_nonneg_right a3
          exact mul_nonneg (by positivity) (pow_nonneg hq.le _)
      _ = _ := one_mul _

/-! ## Uniform, DiscreteUniform -/

private theorem foldl_min (l : List ℝ) (x : ℝ) :
    (l.foldl min x = x ∨ l.foldl min x ∈ l) ∧ l.foldl min x ≤ x ∧ ∀ y ∈ l, l.foldl min x ≤ y := by
  induction l generalizing x with
  | nil => simp
  | cons z l ih =>
    obtain ⟨h1, h2, h3⟩ := ih (min x z)
    simp only [List.foldl_cons]
    refine ⟨?_, h2.trans (min_le_left _ _), ?_⟩
    · rcases h1 with h | h
      · rcases min_choice x z with hm | hm
        · left; rw [h, hm]
        · right; rw [h, hm]; exact List.mem_cons_self
      · right; exact List.mem_cons_of_mem _ h
    · intro y hy
      rcases List.mem_cons.1 hy with rfl | hy
      · exact h2.trans (min_le_right _ _)
      · exact h3 y hy

private theorem foldl_max (l : List ℝ) (x : ℝ) :
    (l.foldl max x = x ∨ l.foldl max x ∈ l) ∧ x ≤ l.foldl max x ∧ ∀ y ∈ l, y ≤ l.foldl max x := by
  induction l generalizing x with
  | nil => simp
  | cons z l ih =>
    obtain ⟨h1, h2, h3⟩ := ih (max x z)
    simp only [List.foldl_cons]
    refine ⟨?_, (le_max_left _ _).trans h2, ?_⟩
    · rcases h1 with h | h
      · rcases max_choice x z with hm | hm
        · left; rw [h, hm]
        · right; rw [h, hm]; exact List.mem_cons_self
      · right; exact List.mem_cons_of_mem _ h
    · intro y hy
      rcases List.mem_cons.1 hy with rfl | hy
      · exact (le_max_right _ _).trans h2
      · exact h3 y hy

theorem npMin_spec (l : List ℝ) (a : ℝ) (h : npMin l = .ok a) : a ∈ l ∧ ∀ x ∈ l, a ≤ x := by
  cases l with
  | nil => simp [npMin] at h
  | cons x l =>
    simp only [npMin, Except.ok.injEq] at h
    obtain ⟨h1, h2, h3⟩ := foldl_min l x
    rw [h] at h1 h2 h3
    refine ⟨?_, fun y hy => ?_⟩
    · rcases h1 with h | h <;> simp [h]
    · rcases List.mem_cons.1 hy with rfl | hy
      · exact h2
      · exact h3 y hy

theorem npMax_spec (l : List ℝ) (a : ℝ) (h : npMax l = .ok a) : a ∈ l ∧ ∀ x ∈ l, x ≤ a := by
  cases l with
  | nil => simp [npMax] at h
  | cons x l =>
    simp only [npMax, Except.ok.injEq] at h
    obtain ⟨h1, h2, h3⟩ := foldl_max l x
    rw [h] at h1 h2 h3
    refine ⟨?_, fun y hy => ?_⟩
    · rcases h1 with h | h <;> simp [h]
    · rcases List.mem_cons.1 hy with rfl | hy
      · exact h2
      · exact h3 y hy

private theorem minmax_ok (l : List ℝ) (hl : l ≠ []) : ∃ a b, npMin l = .ok a ∧ npMax l = .ok b := by
  cases l with
  | nil => exact absurd rfl hl
  | cons x l => exact ⟨_, _, rfl, rfl⟩

theorem lik_zero {α : Type} (f : α → ℝ) (l : List α) (x : α) (hx : x ∈ l) (h : f x = 0) : lik f l = 0 :=
  List.prod_eq_zero (List.mem_map.2 ⟨x, hx, h⟩)

theorem lik_const {α : Type} (f : α → ℝ) (c : ℝ) (l : List α) (h : ∀ x ∈ l, f x = c) :
    lik f l = c ^ l.length := by
  unfold lik
  rw [List.map_congr_left h, List.map_const', List.prod_replicate]

/-- Uniform: samples with at least two different values -/
theorem uniform_fit_optimal_partial (l : List ℝ) (hl : ∃ x ∈ l, ∃ y ∈ l, x < y) :
    ∃ lo up, uniformFit l = .ok (lo, up) ∧ lo < up ∧ (∀ x ∈ l, lo ≤ x ∧ x ≤ up) ∧
      ∀ a b, a < b → lik (uniformPdf a b) l ≤ lik (uniformPdf lo up) l := by
  obtain ⟨x, hx, y, hy, hxy⟩ := hl
  obtain ⟨lo, up, h1, h2⟩ := minmax_ok l (List.ne_nil_of_mem hx)
  obtain ⟨m1, b1⟩ := npMin_spec l lo h1
  obtain ⟨m2, b2⟩ := npMax_spec l up h2
  have hlt : lo < up := lt_of_le_of_lt (b1 x hx) (lt_of_lt_of_le hxy (b2 y hy))
  refine ⟨lo, up, by simp [uniformFit, h1, h2], hlt, fun x hx => ⟨b1 x hx, b2 x hx⟩, ?_⟩
  intro a b hab
  rw [lik_const (uniformPdf lo up) (1 / (up - lo)) l (fun x hx => by simp [uniformPdf, b1 x hx, b2 x hx])]
  by_cases hin : ∀ x ∈ l, a ≤ x ∧ x ≤ b
  · rw [lik_const (uniformPdf a b) (1 / (b - a)) l (fun x hx => by simp [uniformPdf, hin x hx])]
    apply pow_le_pow_left₀ (by have : 0 < b - a := by linarith
                               positivity)
    apply one_div_le_one_div_of_le (by linarith)
    linarith [(hin lo m1).1, (hin up m2).2]
  · push Not at hin
    obtain ⟨z, hz, hz'⟩ := hin
    rw [lik_zero (uniformPdf a b) l z hz (by
      rw [uniformPdf, if_neg]; rintro ⟨h, h'⟩; exact absurd h' (not_le.2 (hz' h)))]
    have : 0 < up - lo := by linarith
    positivity

/-- negation: a constant sample gives both ends the same value, for which there is no density -/
theorem uniform_fit_constant (n : ℕ) (a : ℝ) : uniformFit (List.replicate (n + 1) a) = .ok (a, a) := by
  obtain ⟨lo, up, h1, h2⟩ := minmax_ok (List.replicate (n + 1) a) (by simp)
  have m1 := (npMin_spec _ _ h1).1
  have m2 := (npMax_spec _ _ h2).1
  simp only [List.mem_replicate] at m1 m2
  simp [uniformFit, h1, h2, m1.2, m2.2]

/-- DiscreteUniform: every non-empty sample of whole numbers -/
theorem discrete_uniform_fit_optimal (l : List ℤ) (hl : l ≠ []) :
    ∃ lo up, discreteUniformFit (l.map (Int.cast : ℤ → ℝ)) = .ok (lo, up) ∧ lo ∈ l ∧ up ∈ l ∧ lo ≤ up ∧
      ∀ a b : ℤ, a ≤ b → lik (discreteUniformPmf a b) l ≤ lik (discreteUniformPmf lo up) l := by
  obtain ⟨lo, up, h1, h2⟩ := minmax_ok (l.map (Int.cast : ℤ → ℝ)) (by simpa using hl)
  obtain ⟨m1, b1⟩ := npMin_spec _ lo h1
  obtain ⟨m2, b2⟩ := npMax_spec _ up h2
  obtain ⟨i, hi, rfl⟩ := List.mem_map.1 m1
  obtain ⟨j, hj, rfl⟩ := List.mem_map.1 m2
  have c1 : ∀ k ∈ l, i ≤ k := fun k hk => by exact_mod_cast b1 k (List.mem_map_of_mem hk)
  have c2 : ∀ k ∈ l, k ≤ j := fun k hk => by exact_mod_cast b2 k (List.mem_map_of_mem hk)
  refine ⟨i, j, by simp [discreteUniformFit, h1, h2], hi, hj, c1 j hj, ?_⟩
  intro a b hab
  have hij : (i : ℝ) ≤ j := by exact_mod_cast c1 j hj
  rw [lik_const (discreteUniformPmf i j) (1 / ((j : ℝ) - i + 1)) l
    (fun x hx => by simp [discreteUniformPmf, c1 x hx, c2 x hx])]
  by_cases hin : ∀ x ∈ l, a ≤ x ∧ x ≤ b
  · rw [lik_const (discreteUniformPmf a b) (1 / ((b : ℝ) - a + 1)) l
      (fun x hx => by simp [discreteUniformPmf, hin x hx])]
    have hab' : (a : ℝ) ≤ b := by exact_mod_cast hab
    have e1 : (a : ℝ) ≤ i := by exact_mod_cast (hin i hi).1
    have e2 : (j : ℝ) ≤ b := by exact_mod_cast (hin j hj).2
    apply pow_le_pow_left₀ (one_div_nonneg.2 (by linarith))
    exact one_div_le_one_div_of_le (by linarith) (by linarith)
  · push Not at hin
    obtain ⟨z, hz, hz'⟩ := hin
    rw [lik_zero (discreteUniformPmf a b) l z hz (by
      rw [discreteUniformPmf, if_neg]; rintro ⟨h, h'⟩; exact absurd h' (not_le.2 (hz' h)))]
    exact pow_nonneg (one_div_nonneg.2 (by linarith)) _

/-! ## Laplace -/

private theorem countP_prefix (s : List ℝ) (p : ℝ → Bool) (k : ℕ) (hk : k ≤ s.length)
    (h : ∀ i (hi : i < s.length), i < k → p s[i] = true) : k ≤ s.countP p := by
  have h1 : (s.take k).countP p = k := by
    rw [List.countP_eq_length.2]
    · simp [hk]
    · intro a ha
      obtain ⟨i, hi, rfl⟩ := List.getElem_of_mem ha
      simp only [List.getElem_take]
      simp at hi
      exact h i (by omega) (by omega)
  rw [← List.take_append_drop k s, List.countP_append, h1]
  omega

private theorem countP_suffix (s : List ℝ) (p : ℝ → Bool) (k : ℕ)
    (h : ∀ i (hi : i < s.length), k ≤ i → p s[i] = true) : s.length - k ≤ s.countP p := by
  have h1 : (s.drop k).countP p = s.length - k := by
    rw [List.countP_eq_length.2]
    · simp
    · intro a ha
      obtain ⟨i, hi, rfl⟩ := List.getElem_of_mem ha
      simp only [List.getElem_drop]
      simp at hi
      exact h (k + i) (by omega) (by omega)
  have h2 := List.countP_append (p := p) (l₁ := s.take k) (l₂ := s.drop k)
  rw [List.take_append_drop] at h2
  omega

/-- at least half of the values are on either side of the median -/
private theorem median_spec (l : List ℝ) (m : ℝ) (h : npMedian l = some m) :
    l.length ≤ 2 * l.countP (fun x => decide (x ≤ m)) ∧ l.length ≤ 2 * l.countP (fun x => decide (m ≤ x)) := by
  have hperm := List.perm_insertionSort (· ≤ ·) l
  have hsort := List.pairwise_insertionSort (· ≤ ·) l
  rw [← hperm.countP_eq, ← hperm.countP_eq]
  have hlen := hperm.length_eq
  unfold npMedian at h
  simp only at h
  set s := l.insertionSort (· ≤ ·) with hs
  have hle : ∀ i j (hi : i < s.length) (hj : j < s.length), i ≤ j → s[i] ≤ s[j] := by
    intro i j hi hj hij
    rcases hij.eq_or_lt with rfl | hij
    · exact le_rfl
    · exact List.pairwise_iff_getElem.1 hsort i j hi hj hij
  split_ifs at h with h0 h1
  · obtain ⟨hk, hm⟩ := List.getElem?_eq_some_iff.1 h
    constructor
    · have := countP_prefix s (fun x => decide (x ≤ m)) (l.length / 2 + 1) (by omega)
        (fun i hi hik => by simp only [decide_eq_true_eq]; rw [← hm]; exact hle _ _ _ _ (by omega))
      omega
    · have := countP_suffix s (fun x => decide (m ≤ x)) (l.length / 2)
        (fun i hi hik => by simp only [decide_eq_true_eq]; rw [← hm]; exact hle _ _ _ _ (by omega))
      omega
  · obtain ⟨a, ha, h⟩ := Option.bind_eq_some_iff.1 h
    obtain ⟨b, hb, h⟩ := Option.map_eq_some_iff.1 h
    obtain ⟨hk1, ha⟩ := List.getElem?_eq_some_iff.1 ha
    obtain ⟨hk2, hb⟩ := List.getElem?_eq_some_iff.1 hb
    have hab : a ≤ b := by rw [← ha, ← hb]; exact hle _ _ _ _ (by omega)
    constructor
    · have := countP_prefix s (fun x => decide (x ≤ m)) (l.length / 2) (by omega)
        (fun i hi hik => by
          simp only [decide_eq_true_eq]
          have : s[i] ≤ a := by rw [← ha]; exact hle _ _ _ _ (by omega)
          linarith)
      omega
    · have := countP_suffix s (fun x => decide (m ≤ x)) (l.length / 2)
        (fun i hi hik => by
          simp only [decide_eq_true_eq]
          have : b ≤ s[i] := by rw [← hb]; exact hle _ _ _ _ (by omega)
          linarith)
      omega

private theorem abs_sum_above (l : List ℝ) (m c : ℝ) (hc : m ≤ c) :
    (c - m) * (2 * (l.countP (fun x => decide (x ≤ m)) : ℝ) - l.length) ≤
      (l.map fun x => |x - c|).sum - (l.map fun x => |x - m|).sum := by
  induction l with
  | nil => simp
  | cons x l ih =>
    simp only [List.map_cons, List.sum_cons, List.countP_cons, List.length_cons]
    by_cases hx : x ≤ m
    · rw [abs_of_nonpos (by linarith : x - c ≤ 0), abs_of_nonpos (by linarith : x - m ≤ 0)]
      simp only [hx, decide_true, if_true]
      push_cast
      linarith
    · simp only [hx, decide_false]
      push Not at hx
      rw [abs_of_pos (by linarith : 0 < x - m)]
      have := neg_abs_le (x - c)
      have h2 : x - c ≤ |x - c| := le_abs_self _
      push_cast
      linarith

private theorem abs_sum_below (l : List ℝ) (m c : ℝ) (hc : c ≤ m) :
    (m - c) * (2 * (l.countP (fun x => decide (m ≤ x)) : ℝ) - l.length) ≤
      (l.map fun x => |x - c|).sum - (l.map fun x => |x - m|).sum := by
  induction l with
  | nil => simp
  | cons x l ih =>
    simp only [List.map_cons, List.sum_cons, List.countP_cons, List.length_cons]
    by_cases hx : m ≤ x
    · rw [abs_of_nonneg (by linarith : 0 ≤ x - c), abs_of_nonneg (by linarith : 0 ≤ x - m)]
      simp only [hx, decide_true, if_true]
      push_cast
      linarith
    · simp only [hx, decide_false]
      push Not at hx
      rw [abs_of_neg (by linarith : x - m < 0)]
      have h2 : -(x - c) ≤ |x - c| := neg_le_abs _
      simp only [Bool.false_eq_true, if_false]
      push_cast
      linarith

/-- the median minimises the total distance -/
theorem median_optimal (l : List ℝ) (m : ℝ) (h : npMedian l = some m) (c : ℝ) :
    (l.map fun x => |x - m|).sum ≤ (l.map fun x => |x - c|).sum := by
  obtain ⟨h1, h2⟩ := median_spec l m h
  have h1' : (l.length : ℝ) ≤ 2 * (l.countP (fun x => decide (x ≤ m)) : ℝ) := by exact_mod_cast h1
  have h2' : (l.length : ℝ) ≤ 2 * (l.countP (fun x => decide (m ≤ x)) : ℝ) := by exact_mod_cast h2
  rcases le_total m c with hc | hc
  · have := abs_sum_above l m c hc
    nlinarith [mul_nonneg (sub_nonneg.2 hc) (sub_nonneg.2 h1')]
  · have := abs_sum_below l m c hc
    nlinarith [mul_nonneg (sub_nonneg.2 hc) (sub_nonneg.2 h2')]

/-- Laplace: samples that give a positive scale (not all values equal) -/
theorem laplace_fit_optimal_partial (l : List ℝ) (m s : ℝ) (h : laplaceFit l = some (m, s)) (hs : 0 < s)
    (μ b : ℝ) (hb : 0 < b) : lik (laplacePdf μ b) l ≤ lik (laplacePdf m s) l := by
  unfold laplaceFit at h
  obtain ⟨m', hm, h⟩ := Option.bind_eq_some_iff.1 h
  obtain ⟨s', hs', h⟩ := Option.map_eq_some_iff.1 h
  injection h with e1 e2
  subst e1 e2
  unfold npDiv at hs'
  split_ifs at hs' with hn
  simp only [Option.some.injEq] at hs'
  have hsum : (l.map fun x => |x - m'|).sum = l.length * s' := by rw [← hs']; field_simp
  have hlik : ∀ μ b : ℝ, lik (laplacePdf μ b) l =
      (1 / (2 * b)) ^ l.length * Real.exp (-(l.map fun x => |x - μ|).sum / b) := by
    intro μ b
    rw [lik_exp (laplacePdf μ b) (fun _ => 1) (1 / (2 * b)) (fun x => -|x - μ| / b) l
      (by intro x hx; rw [laplacePdf]; ring), sum_neg_div l (fun x => |x - μ|)]
    simp
  have hmed := median_optimal l m' hm μ
  rw [hlik, hlik, hsum]
  rw [hsum] at hmed
  calc (1 / (2 * b)) ^ l.length * Real.exp (-(l.map fun x => |x - μ|).sum / b)
      ≤ (1 / (2 * b)) ^ l.length * Real.exp (l.length * (-s' / b)) := by
        apply mul_le_mul_of_nonneg_left _ (by positivity)
        apply Real.exp_le_exp.2
        rw [mul_div_assoc']
        apply div_le_div_of_nonneg_right _ hb.le
        linarith
    _ = (1 / (2 * b) * Real.exp (-s' / b)) ^ l.length := by rw [Real.exp_nat_mul, mul_pow]
    _ ≤ (1 / (2 * s') * Real.exp (-1)) ^ l.length := by
        apply pow_le_pow_left₀ (by positivity)
        have h1 : s' / b ≤ Real.exp (s' / b - 1) := by
          have := Real.add_one_le_exp (s' / b - 1); linarith
        have e : Real.exp (-1) = Real.exp (s' / b - 1) * Real.exp (-s' / b) := by
          rw [← Real.exp_add]; congr 1; ring
        rw [e, ← mul_assoc]
        apply mul_le_mul_of_nonneg_right _ (Real.exp_pos _).le
        rw [one_div_mul_eq_div, le_div_iff₀ (by positivity)]
        calc 1 / (2 * b) * (2 * s') = s' / b := by field_simp
          _ ≤ _ := h1
    _ = _ := by
        rw [mul_pow, ← Real.exp_nat_mul]
        congr 2
        field_simp

/-- the scale is positive unless all values agree with the median -/
theorem laplace_spread (l : List ℝ) (m s : ℝ) (h : laplaceFit l = some (m, s)) :
    0 ≤ s ∧ (0 < s ↔ ∃ x ∈ l, x ≠ m) := by
  unfold laplaceFit at h
  obtain ⟨m', hm, h⟩ := Option.bind_eq_some_iff.1 h
  obtain ⟨s', hs', h⟩ := Option.map_eq_some_iff.1 h
  injection h with e1 e2
  subst e1 e2
  unfold npDiv at hs'
  split_ifs at hs' with hn
  simp only [Option.some.injEq] at hs'
  have hn' : (0 : ℝ) < l.length := lt_of_le_of_ne (by positivity) (Ne.symm hn)
  have hnn : ∀ y ∈ l.map (fun x => |x - m'|), 0 ≤ y := by
    intro y hy
    obtain ⟨x, -, rfl⟩ := List.mem_map.1 hy
    positivity
  rw [← hs']
  refine ⟨div_nonneg (List.sum_nonneg hnn) hn'.le, ?_⟩
  rw [div_pos_iff_of_pos_right hn']
  constructor
  · intro hp
    by_contra hc
    push Not at hc
    have : (l.map fun x => |x - m'|).sum = 0 := by
      apply List.sum_eq_zero
      intro y hy
      obtain ⟨x, hx, rfl⟩ := List.mem_map.1 hy
      rw [hc x hx]; simp
    linarith
  · rintro ⟨x, hx, hne⟩
    have h1 := List.single_le_sum hnn _ (List.mem_map_of_mem (f := fun x => |x - m'|) hx)
    have : 0 < |x - m'| := abs_pos.2 (sub_ne_zero.2 hne)
    linarith

/-! ## Examples: the hypotheses are met by ordinary samples -/

example : ∃ m s, normalFit [0, 2, 7] = .ok (m, s) ∧ 0 < s := by
  have h := mean_and_std_value [0, 2, 7] (by simp)
  exact ⟨_, _, h, (fit_spread _ _ _ h).1.2 ⟨0, by simp, 2, by simp, by norm_num⟩⟩

example : ∃ m s, logNormalFit [1, 3] = .ok (m, s) ∧ 0 < s := by
  have h := mean_and_std_value (([1, 3] : List ℝ).map Real.log) (by simp)
  refine ⟨_, _, h, (fit_spread _ _ _ h).1.2 ⟨Real.log 1, by simp, Real.log 3, by simp, ?_⟩⟩
  have : 0 < Real.log 3 := Real.log_pos (by norm_num)
  simp; positivity

example : ∃ s, halfNormalFit [0, 2] = some s ∧ 0 < s :=
  ⟨_, by simp only [halfNormalFit, npMean]; simp; rfl, by positivity⟩

example : laplaceFit [3, 1, 2] = some (2, 2 / 3) := by
  have h : npMedian [3, 1, 2] = some 2 := by
    norm_num [npMedian, List.insertionSort]
  norm_num [laplaceFit, h, npDiv]

end Verif.Props
