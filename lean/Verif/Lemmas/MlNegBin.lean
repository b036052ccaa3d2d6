import Verif.Spec.CountLaw
import Verif.Spec.Likelihood
import Mathlib.Analysis.Calculus.Deriv.MeanValue
import Mathlib.Analysis.Calculus.LocalExtr.Basic
import Mathlib.Analysis.SpecialFunctions.Log.Deriv
import Mathlib.Tactic

/-!
# Most likely NegativeBinomial distributions

For a given `alpha` the most likely mean is the mean `m` of the sample; with that mean the derivative of the log-likelihood
with respect to `alpha` is `score s alpha`.  Its differences `score s a - score s (a + 1)` have the sign that says whether
the variance of the sample exceeds its mean.
-/

namespace Verif.Ml
open Verif.Spec Filter Topology

section Sums
variable {α : Type}

theorem lsum_add (s : List α) (f g : α → ℝ) : (s.map fun x => f x + g x).sum = (s.map f).sum + (s.map g).sum := by
  induction s with
  | nil => simp
  | cons a t ih => simp only [List.map_cons, List.sum_cons, ih]; ring

theorem lsum_mul (s : List α) (c : ℝ) (f : α → ℝ) : (s.map fun x => c * f x).sum = c * (s.map f).sum := by
  induction s with
  | nil => simp
  | cons a t ih => simp only [List.map_cons, List.sum_cons, ih]; ring

theorem lsum_const (s : List α) (c : ℝ) : (s.map fun _ => c).sum = s.length * c := by
  induction s with
  | nil => simp
  | cons a t ih => simp only [List.map_cons, List.sum_cons, ih, List.length_cons]; push_cast; ring

theorem lsum_le (s : List α) (f g : α → ℝ) (h : ∀ x ∈ s, f x ≤ g x) : (s.map f).sum ≤ (s.map g).sum := by
  induction s with
  | nil => simp
  | cons a t ih =>
    simp only [List.map_cons, List.sum_cons]
    exact add_le_add (h a List.mem_cons_self) (ih fun x hx => h x (List.mem_cons_of_mem _ hx))

theorem lik_pos' {f : α → ℝ} {s : List α} (h : ∀ x ∈ s, 0 < f x) : 0 < lik f s := by
  unfold lik
  induction s with
  | nil => simp
  | cons a t ih =>
    simp only [List.map_cons, List.prod_cons]
    exact mul_pos (h a List.mem_cons_self) (ih fun x hx => h x (List.mem_cons_of_mem _ hx))

theorem log_lik' {f : α → ℝ} {s : List α} (h : ∀ x ∈ s, 0 < f x) :
    Real.log (lik f s) = (s.map fun x => Real.log (f x)).sum := by
  unfold lik
  induction s with
  | nil => simp
  | cons a t ih =>
    have ht : ∀ x ∈ t, 0 < f x := fun x hx => h x (List.mem_cons_of_mem _ hx)
    have h2 : 0 < (t.map f).prod := lik_pos' ht
    simp only [List.map_cons, List.prod_cons, List.sum_cons]
    rw [Real.log_mul (h a List.mem_cons_self).ne' h2.ne', ih ht]

end Sums

/-- total, total of the squares -/
noncomputable def tot (s : List ℕ) : ℝ := (s.map fun x : ℕ => (x : ℝ)).sum
noncomputable def sqTot (s : List ℕ) : ℝ := (s.map fun x : ℕ => (x : ℝ) ^ 2).sum

/-- `log Γ(x + a) - log Γ(a)` -/
noncomputable def rise (a : ℝ) (x : ℕ) : ℝ := ∑ j ∈ Finset.range x, Real.log (a + j)
noncomputable def harm (a : ℝ) (x : ℕ) : ℝ := ∑ j ∈ Finset.range x, (a + j)⁻¹

theorem gamma_rise {a : ℝ} (ha : 0 < a) (x : ℕ) : Real.log (Real.Gamma (x + a)) = Real.log (Real.Gamma a) + rise a x := by
  induction x with
  | zero => simp [rise]
  | succ n ih =>
    have h : (n : ℝ) + a ≠ 0 := by positivity
    have : ((n + 1 : ℕ) : ℝ) + a = (n + a) + 1 := by push_cast; ring
    rw [this, Real.Gamma_add_one h, Real.log_mul h (Real.Gamma_pos_of_pos (by positivity)).ne', ih, rise, rise,
      Finset.sum_range_succ]
    rw [add_comm (n : ℝ) a]
    ring

theorem negBin_pos {m a : ℝ} (hm : 0 < m) (ha : 0 < a) (x : ℕ) : 0 < negBinomialPmf m a x := by
  unfold negBinomialPmf
  have h1 := Real.Gamma_pos_of_pos (show (0 : ℝ) < x + a by positivity)
  have h2 := Real.Gamma_pos_of_pos ha
  positivity

theorem log_negBin {m a : ℝ} (hm : 0 < m) (ha : 0 < a) (x : ℕ) :
    Real.log (negBinomialPmf m a x) = rise a x + (-Real.log x.factorial) + (a * Real.log a - a * Real.log (m + a)) +
      (Real.log m - Real.log (m + a)) * x := by
  unfold negBinomialPmf
  have h1 := Real.Gamma_pos_of_pos (show (0 : ℝ) < x + a by positivity)
  have h2 := Real.Gamma_pos_of_pos ha
  have h3 : (0 : ℝ) < x.factorial := by positivity
  rw [Real.log_mul (by positivity) (by positivity), Real.log_mul (by positivity) (by positivity),
    Real.log_div h1.ne' (by positivity), Real.log_mul h3.ne' h2.ne', gamma_rise ha, Real.log_rpow (by positivity),
    Real.log_pow, Real.log_div ha.ne' (by positivity), Real.log_div hm.ne' (by positivity)]
  ring

/-- the log-likelihood without the part that does not depend on the parameters -/
noncomputable def nbObj (s : List ℕ) (m a : ℝ) : ℝ :=
  (s.map fun x => rise a x).sum + s.length * (a * Real.log a - a * Real.log (m + a)) + (Real.log m - Real.log (m + a)) * tot s

theorem nb_log (s : List ℕ) : ∃ C, ∀ m a : ℝ, 0 < m → 0 < a → Real.log (lik (negBinomialPmf m a) s) = nbObj s m a + C := by
  refine ⟨(s.map fun x => -Real.log x.factorial).sum, fun m a hm ha => ?_⟩
  rw [log_lik' fun x _ => negBin_pos hm ha x]
  simp only [log_negBin hm ha]
  rw [lsum_add, lsum_add, lsum_add, lsum_const, lsum_mul]
  unfold nbObj tot
  ring

/-- the best mean for a given `alpha` is the mean of the sample, and no other -/
theorem nb_mean_lt (s : List ℕ) (hs : s ≠ []) (m a μ : ℝ) (hm : 0 < m) (ha : 0 < a) (hT : tot s = s.length * m) (hμ : 0 < μ)
    (hne : μ ≠ m) : nbObj s μ a < nbObj s m a := by
  unfold nbObj
  rw [hT]
  have h1 : Real.log (μ * (m + a) / (m * (μ + a))) ≤ μ * (m + a) / (m * (μ + a)) - 1 :=
    Real.log_le_sub_one_of_pos (by positivity)
  have h2 : Real.log ((m + a) / (μ + a)) < (m + a) / (μ + a) - 1 := by
    refine Real.log_lt_sub_one_of_pos (by positivity) fun h => ?_
    rw [div_eq_one_iff_eq (by positivity)] at h
    exact hne (by linarith)
  rw [Real.log_div (by positivity) (by positivity), Real.log_mul hμ.ne' (by positivity),
    Real.log_mul hm.ne' (by positivity)] at h1
  rw [Real.log_div (by positivity) (by positivity)] at h2
  have h3 : m * (μ * (m + a) / (m * (μ + a)) - 1) + a * ((m + a) / (μ + a) - 1) = 0 := by
    field_simp
    ring
  have h4 := add_lt_add_of_le_of_lt (mul_le_mul_of_nonneg_left h1 hm.le) (mul_lt_mul_of_pos_left h2 ha)
  rw [h3] at h4
  have hn : (0 : ℝ) < s.length := by exact_mod_cast List.length_pos_iff.2 hs
  have h5 := mul_lt_mul_of_pos_left h4 hn
  nlinarith [h5]

theorem nb_mean (s : List ℕ) (hs : s ≠ []) (m a μ : ℝ) (hm : 0 < m) (ha : 0 < a) (hT : tot s = s.length * m) (hμ : 0 < μ) :
    nbObj s μ a ≤ nbObj s m a := by
  rcases eq_or_ne μ m with rfl | h
  · exact le_rfl
  · exact (nb_mean_lt s hs m a μ hm ha hT hμ h).le

/-- derivative of the log-likelihood at the best mean -/
noncomputable def score (s : List ℕ) (m a : ℝ) : ℝ := (s.map fun x => harm a x).sum - s.length * (Real.log (a + m) - Real.log a)

private theorem rise_deriv {a : ℝ} (ha : 0 < a) (x : ℕ) : HasDerivAt (fun a => rise a x) (harm a x) a := by
  unfold rise harm
  refine HasDerivAt.fun_sum fun j _ => ?_
  have := ((hasDerivAt_id a).add_const (j : ℝ)).log (by positivity)
  simpa using this

private theorem rises_deriv {a : ℝ} (ha : 0 < a) (s : List ℕ) :
    HasDerivAt (fun a => (s.map fun x => rise a x).sum) ((s.map fun x => harm a x).sum) a := by
  induction s with
  | nil => simpa using hasDerivAt_const a (0 : ℝ)
  | cons x t ih =>
    simp only [List.map_cons, List.sum_cons]
    exact (rise_deriv ha x).add ih

theorem nb_deriv (s : List ℕ) (m a : ℝ) (hm : 0 < m) (ha : 0 < a) (hT : tot s = s.length * m) :
    HasDerivAt (fun a => nbObj s m a) (score s m a) a := by
  unfold nbObj
  have h1 := rises_deriv ha s
  have hlog : HasDerivAt (fun a => Real.log a) a⁻¹ a := Real.hasDerivAt_log ha.ne'
  have hlog2 : HasDerivAt (fun a => Real.log (m + a)) (m + a)⁻¹ a := by
    have := ((hasDerivAt_id a).const_add m).log (by positivity)
    simpa using this
  have h2 := (((hasDerivAt_id a).mul hlog).sub ((hasDerivAt_id a).mul hlog2)).const_mul (s.length : ℝ)
  have h3 := ((hasDerivAt_const a (Real.log m)).sub hlog2).mul_const (tot s)
  have h := (h1.add h2).add h3
  refine (h.congr_deriv ?_)
  rw [hT]
  unfold score
  rw [add_comm a m]
  simp only [id]
  field_simp
  ring

theorem harm_step {a : ℝ} (ha : 0 < a) (x : ℕ) : harm a x - harm (a + 1) x = x / (a * (a + x)) := by
  have h : harm a x - harm (a + 1) x = a⁻¹ - (a + x)⁻¹ := by
    unfold harm
    rw [← Finset.sum_sub_distrib]
    have := Finset.sum_range_sub' (fun j : ℕ => (a + j)⁻¹) x
    simp only [Nat.cast_zero, add_zero] at this
    rw [← this]
    refine Finset.sum_congr rfl fun j _ => ?_
    push_cast
    rw [show a + 1 + (j : ℝ) = a + (j + 1) by ring]
  rw [h]
  field_simp
  ring

theorem score_step (s : List ℕ) (m a : ℝ) (hm : 0 < m) (ha : 0 < a) :
    score s m a - score s m (a + 1) =
      (s.map fun x : ℕ => (x : ℝ) / (a * (a + x))).sum - s.length * Real.log (1 + m / (a * (a + m + 1))) := by
  unfold score
  have h1 : (s.map fun x => harm a x).sum = (s.map fun x => harm (a + 1) x).sum + (s.map fun x : ℕ => (x : ℝ) / (a * (a + x))).sum := by
    rw [← lsum_add]
    congr 1
    refine List.map_congr_left fun x _ => ?_
    rw [← harm_step ha]
    ring
  have h2 : 1 + m / (a * (a + m + 1)) = (a + m) * (a + 1) / (a * (a + 1 + m)) := by
    field_simp
    ring
  rw [h1, h2, Real.log_div (by positivity) (by positivity), Real.log_mul (by positivity) (by positivity),
    Real.log_mul (by positivity) (by positivity)]
  ring

private theorem harm_tendsto (x : ℕ) : Tendsto (fun a : ℝ => harm a x) atTop (𝓝 0) := by
  unfold harm
  have : Tendsto (fun a : ℝ => ∑ j ∈ Finset.range x, (a + j)⁻¹) atTop (𝓝 (∑ _j ∈ Finset.range x, (0 : ℝ))) :=
    tendsto_finsetSum _ fun j _ => tendsto_inv_atTop_zero.comp (tendsto_atTop_add_const_right _ _ tendsto_id)
  simpa using this

theorem score_tendsto (s : List ℕ) (m : ℝ) (hm : 0 < m) : Tendsto (fun a => score s m a) atTop (𝓝 0) := by
  unfold score
  have h1 : Tendsto (fun a : ℝ => (s.map fun x => harm a x).sum) atTop (𝓝 0) := by
    induction s with
    | nil => simp
    | cons x t ih =>
      simp only [List.map_cons, List.sum_cons]
      simpa using (harm_tendsto x).add ih
  have h2 : Tendsto (fun a : ℝ => Real.log (a + m) - Real.log a) atTop (𝓝 0) := by
    have h3 : Tendsto (fun a : ℝ => Real.log (1 + m / a)) atTop (𝓝 (Real.log 1)) := by
      refine (Real.continuousAt_log one_ne_zero).tendsto.comp ?_
      simpa using (tendsto_const_nhds (x := (1 : ℝ))).add ((tendsto_const_nhds (x := m)).div_atTop tendsto_id)
    rw [Real.log_one] at h3
    refine h3.congr' ?_
    filter_upwards [eventually_gt_atTop 0] with a ha
    rw [← Real.log_div (by positivity) ha.ne']
    congr 1
    field_simp
  simpa using h1.sub (h2.const_mul (s.length : ℝ))

/-- a function whose differences are positive from some point on, and that tends to zero, is positive there -/
private theorem pos_of_step {D : ℝ → ℝ} {a0 : ℝ} (h : ∀ a, a0 ≤ a → D (a + 1) < D a) (ht : Tendsto D atTop (𝓝 0)) (a : ℝ)
    (ha : a0 ≤ a) : 0 < D a := by
  have h1 : ∀ n : ℕ, D (a + 1 + n) ≤ D (a + 1) := by
    intro n
    induction n with
    | zero => simp
    | succ n ih =>
      refine le_trans ?_ ih
      have hn : (0 : ℝ) ≤ n := by positivity
      have := h (a + 1 + n) (by linarith)
      rw [show a + 1 + ((n + 1 : ℕ) : ℝ) = a + 1 + n + 1 by push_cast; ring]
      exact this.le
  have h2 : Tendsto (fun n : ℕ => D (a + 1 + n)) atTop (𝓝 0) :=
    ht.comp (tendsto_atTop_add_const_left _ _ tendsto_natCast_atTop_atTop)
  have h3 : 0 ≤ D (a + 1) := le_of_tendsto' h2 h1
  exact h3.trans_lt (h a ha)

/-- not more variance than mean: the likelihood grows with `alpha` -/
theorem score_pos (s : List ℕ) (m a : ℝ) (hs : s ≠ []) (hm : 0 < m) (ha : 0 < a) (hT : tot s = s.length * m)
    (hv : sqTot s ≤ s.length * (m ^ 2 + m)) : 0 < score s m a := by
  refine pos_of_step (a0 := a) (fun b hb => ?_) (score_tendsto s m hm) a le_rfl
  have hb : 0 < b := ha.trans_le hb
  rw [← sub_pos, score_step s m b hm hb, sub_pos]
  have hn : (0 : ℝ) < s.length := by exact_mod_cast List.length_pos_iff.2 hs
  have h1 : Real.log (1 + m / (b * (b + m + 1))) < m / (b * (b + m + 1)) := by
    have := Real.log_lt_sub_one_of_pos (x := 1 + m / (b * (b + m + 1))) (by positivity) (by
      have : 0 < m / (b * (b + m + 1)) := by positivity
      linarith)
    linarith
  refine (mul_lt_mul_of_pos_left h1 hn).trans_le ?_
  have h2 : ∀ x ∈ s, ((1 / (b * (b + m + 1)) + (m + 1) / (b * (b + m + 1) ^ 2)) * (x : ℝ) +
      (-(1 / (b * (b + m + 1) ^ 2))) * (x : ℝ) ^ 2) ≤ (x : ℝ) / (b * (b + x)) := by
    intro x _
    have hx : (0 : ℝ) ≤ x := by positivity
    rw [← sub_nonneg]
    have : (x : ℝ) / (b * (b + x)) - ((1 / (b * (b + m + 1)) + (m + 1) / (b * (b + m + 1) ^ 2)) * (x : ℝ) +
      (-(1 / (b * (b + m + 1) ^ 2))) * (x : ℝ) ^ 2) = x * (x - (m + 1)) ^ 2 / (b * (b + x) * (b + m + 1) ^ 2) := by
      field_simp
      ring
    rw [this]
    positivity
  refine le_trans ?_ (lsum_le s _ _ h2)
  rw [lsum_add, lsum_mul, lsum_mul]
  have h3 : (1 / (b * (b + m + 1)) + (m + 1) / (b * (b + m + 1) ^ 2)) * tot s + -(1 / (b * (b + m + 1) ^ 2)) * sqTot s -
      s.length * (m / (b * (b + m + 1))) = (s.length * (m ^ 2 + m) - sqTot s) / (b * (b + m + 1) ^ 2) := by
    rw [hT]
    field_simp
    ring
  have h4 : 0 ≤ (s.length * (m ^ 2 + m) - sqTot s) / (b * (b + m + 1) ^ 2) := div_nonneg (by linarith) (by positivity)
  rw [← h3] at h4
  unfold tot sqTot at h4
  linarith

/-- more variance than mean: the likelihood falls once `alpha` is large -/
theorem score_neg (s : List ℕ) (m : ℝ) (hm : 0 < m) (hT : tot s = s.length * m)
    (hv : s.length * (m ^ 2 + m) < sqTot s) : ∃ a0 : ℝ, 0 < a0 ∧ ∀ a, a0 ≤ a → score s m a < 0 := by
  set C : ℝ := (s.map fun x : ℕ => (x : ℝ) ^ 3).sum with hC
  have hC0 : 0 ≤ C := by
    have := lsum_le s (fun _ => 0) (fun x : ℕ => (x : ℝ) ^ 3) fun x _ => by positivity
    rw [lsum_const, mul_zero] at this
    exact this
  set v : ℝ := sqTot s - s.length * (m ^ 2 + m) with hvd
  have hv0 : 0 < v := by linarith
  refine ⟨C / v + 1, by positivity, fun a ha => ?_⟩
  suffices h : 0 < -score s m a by linarith
  refine pos_of_step (D := fun a => -score s m a) (a0 := C / v + 1) (fun b hb => ?_) (by simpa using (score_tendsto s m hm).neg) a ha
  have hb1 : C / v < b := by linarith
  have hb0 : 0 < b := lt_of_le_of_lt (by positivity) hb1
  have hCb : C < v * b := by rw [div_lt_iff₀ hv0] at hb1; linarith
  suffices h : score s m b - score s m (b + 1) < 0 by linarith
  rw [score_step s m b hm hb0, sub_neg]
  have hz : 0 < m / (b * (b + m + 1)) := by positivity
  have h1 := Real.one_sub_inv_le_log_of_pos (x := 1 + m / (b * (b + m + 1))) (by positivity)
  have hn : (0 : ℝ) ≤ s.length := by positivity
  refine lt_of_lt_of_le ?_ (mul_le_mul_of_nonneg_left h1 hn)
  have h2 : ∀ x ∈ s, (x : ℝ) / (b * (b + x)) ≤ (1 / b ^ 2) * (x : ℝ) + (-(1 / b ^ 3)) * (x : ℝ) ^ 2 + 1 / b ^ 4 * (x : ℝ) ^ 3 := by
    intro x _
    have hx : (0 : ℝ) ≤ x := by positivity
    rw [← sub_nonneg]
    have : (1 / b ^ 2) * (x : ℝ) + (-(1 / b ^ 3)) * (x : ℝ) ^ 2 + 1 / b ^ 4 * (x : ℝ) ^ 3 - (x : ℝ) / (b * (b + x)) =
        (x : ℝ) ^ 4 / (b ^ 4 * (b + x)) := by
      field_simp
      ring
    rw [this]
    positivity
  refine lt_of_le_of_lt (lsum_le s _ _ h2) ?_
  rw [lsum_add, lsum_add, lsum_mul, lsum_mul, lsum_mul]
  have h3 : 1 - (1 + m / (b * (b + m + 1)))⁻¹ = m / ((b + m) * (b + 1)) := by
    have : 1 + m / (b * (b + m + 1)) = (b + m) * (b + 1) / (b * (b + m + 1)) := by
      field_simp
      ring
    rw [this, inv_div]
    field_simp
    ring
  have h4 : m / b ^ 2 - m * (m + 1) / b ^ 3 ≤ m / ((b + m) * (b + 1)) := by
    rw [← sub_nonneg]
    have : m / ((b + m) * (b + 1)) - (m / b ^ 2 - m * (m + 1) / b ^ 3) =
        m * ((m ^ 2 + m + 1) * b + m * (m + 1)) / (b ^ 3 * ((b + m) * (b + 1))) := by
      field_simp
      ring
    rw [this]
    positivity
  rw [h3]
  refine lt_of_lt_of_le ?_ (mul_le_mul_of_nonneg_left h4 hn)
  have h5 : s.length * (m / b ^ 2 - m * (m + 1) / b ^ 3) -
      (1 / b ^ 2 * tot s + -(1 / b ^ 3) * sqTot s + 1 / b ^ 4 * C) = (v * b - C) / b ^ 4 := by
    rw [hT, hvd]
    field_simp
    ring
  have h6 : 0 < (v * b - C) / b ^ 4 := div_pos (by linarith) (by positivity)
  rw [← h5] at h6
  unfold tot sqTot at h6
  linarith

/-- the likelihood grows with `alpha` as long as `alpha` is small -/
theorem score_zero (s : List ℕ) (m : ℝ) (hm : 0 < m) (h0 : ∃ x ∈ s, x ≠ 0) :
    ∀ a, 0 < a → a ≤ m / (4 * (s.length * m) ^ 2 + 1) → 0 < score s m a := by
  have hn : (0 : ℝ) ≤ s.length := by positivity
  set K : ℝ := 4 * (s.length * m) ^ 2 with hK
  have hK0 : 0 ≤ K := by positivity
  intro a ha ha1
  set y : ℝ := m / a with hy
  have hy0 : 0 < y := by positivity
  have hyK : K + 1 ≤ y := by
    rw [hy, le_div_iff₀ ha]
    rw [le_div_iff₀ (by positivity)] at ha1
    linarith
  have h1 : a⁻¹ ≤ (s.map fun x => harm a x).sum := by
    have hnn : ∀ x : ℕ, 0 ≤ harm a x := fun x => Finset.sum_nonneg fun j _ => by positivity
    obtain ⟨x, hx, hx0⟩ := h0
    have h2 : a⁻¹ ≤ harm a x := by
      unfold harm
      have := Finset.single_le_sum (f := fun j : ℕ => (a + j)⁻¹) (s := Finset.range x) (fun j _ => by positivity)
        (Finset.mem_range.2 (Nat.pos_of_ne_zero hx0))
      simpa using this
    refine h2.trans ?_
    have h3 := List.single_le_sum (l := s.map fun x => harm a x) (by
      intro y hy
      obtain ⟨z, -, rfl⟩ := List.mem_map.1 hy
      exact hnn z) (harm a x) (List.mem_map.2 ⟨x, hx, rfl⟩)
    exact h3
  have h2 : Real.log (a + m) - Real.log a ≤ 2 * √(1 + y) - 2 := by
    rw [← Real.log_div (by positivity) ha.ne']
    have h3 : (a + m) / a = √(1 + y) ^ 2 := by
      rw [Real.sq_sqrt (by positivity), hy]
      field_simp
    rw [h3, Real.log_pow]
    have := Real.log_le_sub_one_of_pos (x := √(1 + y)) (by positivity)
    push_cast
    linarith
  have h3 : s.length * m * (2 * √(1 + y)) < y := by
    refine lt_of_pow_lt_pow_left₀ 2 hy0.le ?_
    have h6 : (s.length * m * (2 * √(1 + y))) ^ 2 = K * √(1 + y) ^ 2 := by rw [hK]; ring
    rw [h6, Real.sq_sqrt (by positivity)]
    nlinarith [hyK, hK0]
  have h4 : a⁻¹ = y / m := by rw [hy]; field_simp
  unfold score
  have h5 : s.length * (Real.log (a + m) - Real.log a) < a⁻¹ := by
    rw [h4, lt_div_iff₀ hm]
    have := mul_le_mul_of_nonneg_left h2 hn
    nlinarith [mul_le_mul_of_nonneg_right this hm.le, mul_nonneg hn hm.le]
  linarith

/-- more variance than mean: there are most likely parameters -/
theorem nb_exists (s : List ℕ) (m : ℝ) (hm : 0 < m) (hT : tot s = s.length * m)
    (hv : s.length * (m ^ 2 + m) < sqTot s) (h0 : ∃ x ∈ s, x ≠ 0) :
    ∃ a : ℝ, 0 < a ∧ ∀ μ b : ℝ, 0 < μ → 0 < b → nbObj s μ b ≤ nbObj s m a := by
  obtain ⟨a0, ha0, hneg⟩ := score_neg s m hm hT hv
  have hpos := score_zero s m hm h0
  obtain ⟨a1, ha1d⟩ : ∃ a1, a1 = m / (4 * (s.length * m) ^ 2 + 1) := ⟨_, rfl⟩
  rw [← ha1d] at hpos
  have ha1 : 0 < a1 := by rw [ha1d]; positivity
  have hlt : a1 < a0 := by
    by_contra h
    have := hpos a0 ha0 (not_lt.1 h)
    have := hneg a0 le_rfl
    linarith
  have hd := fun a (ha : 0 < a) => nb_deriv s m a hm ha hT
  obtain ⟨a, ha, hmax⟩ := isCompact_Icc.exists_isMaxOn (s := Set.Icc a1 a0) ⟨a1, le_rfl, hlt.le⟩
    (f := fun a => nbObj s m a) fun x hx => (hd x (ha1.trans_le hx.1)).continuousAt.continuousWithinAt
  have hmono : MonotoneOn (fun a => nbObj s m a) (Set.Ioc 0 a1) := by
    refine monotoneOn_of_deriv_nonneg (convex_Ioc 0 a1) (fun x hx => (hd x hx.1).continuousAt.continuousWithinAt) ?_ ?_
    · intro x hx
      rw [interior_Ioc] at hx
      exact (hd x hx.1).differentiableAt.differentiableWithinAt
    · intro x hx
      rw [interior_Ioc] at hx
      rw [(hd x hx.1).deriv]
      exact (hpos x hx.1 hx.2.le).le
  have hanti : AntitoneOn (fun a => nbObj s m a) (Set.Ici a0) := by
    refine antitoneOn_of_deriv_nonpos (convex_Ici a0) (fun x hx => (hd x (ha0.trans_le hx)).continuousAt.continuousWithinAt) ?_ ?_
    · intro x hx
      rw [interior_Ici] at hx
      exact (hd x (ha0.trans hx)).differentiableAt.differentiableWithinAt
    · intro x hx
      rw [interior_Ici] at hx
      rw [(hd x (ha0.trans hx)).deriv]
      exact (hneg x hx.le).le
  refine ⟨a, ha1.trans_le ha.1, fun μ b hμ hb => (nb_mean s (List.ne_nil_of_mem h0.choose_spec.1) m b μ hm hb hT hμ).trans ?_⟩
  rcases le_total b a1 with h | h
  · exact (hmono ⟨hb, h⟩ ⟨ha1, le_rfl⟩ h).trans (hmax ⟨le_rfl, hlt.le⟩)
  rcases le_total b a0 with h' | h'
  · exact hmax ⟨h, h'⟩
  · exact (hanti (Set.mem_Ici.2 le_rfl) h' h').trans (hmax ⟨hlt.le, le_rfl⟩)

/-- not more variance than mean: the mean of the sample with a larger `alpha` is better -/
theorem nb_larger (s : List ℕ) (hs : s ≠ []) (m : ℝ) (hm : 0 < m) (hT : tot s = s.length * m)
    (hv : sqTot s ≤ s.length * (m ^ 2 + m)) (μ a : ℝ) (hμ : 0 < μ) (ha : 0 < a) : nbObj s μ a < nbObj s m (a + 1) := by
  refine (nb_mean s hs m a μ hm ha hT hμ).trans_lt ?_
  have hd := fun a (ha : 0 < a) => nb_deriv s m a hm ha hT
  have hmono : StrictMonoOn (fun a => nbObj s m a) (Set.Ioi 0) := by
    refine strictMonoOn_of_deriv_pos (convex_Ioi 0) (fun x hx => (hd x hx).continuousAt.continuousWithinAt) ?_
    intro x hx
    rw [interior_Ioi] at hx
    rw [(hd x hx).deriv]
    exact score_pos s m x hs hm hx hT hv
  exact hmono ha (Set.mem_Ioi.2 (by positivity)) (by linarith)

/-- not more variance than mean: other parameters are always more likely -/
theorem nb_better (s : List ℕ) (hs : s ≠ []) (m : ℝ) (hT : tot s = s.length * m)
    (hv : sqTot s ≤ s.length * (m ^ 2 + m)) (μ a : ℝ) (hμ : 0 < μ) (ha : 0 < a) :
    ∃ μ' a' : ℝ, 0 < μ' ∧ 0 < a' ∧ nbObj s μ a < nbObj s μ' a' := by
  have hn : (0 : ℝ) < s.length := by exact_mod_cast List.length_pos_iff.2 hs
  have hT0 : 0 ≤ tot s := by
    have := lsum_le s (fun _ => 0) (fun x : ℕ => (x : ℝ)) fun x _ => by positivity
    rw [lsum_const, mul_zero] at this
    exact this
  have hm0 : 0 ≤ m := by
    by_contra h
    have := mul_neg_of_pos_of_neg hn (not_le.1 h)
    linarith
  rcases hm0.eq_or_lt with hm | hm
  · refine ⟨μ / 2, a, by positivity, ha, ?_⟩
    unfold nbObj
    rw [hT, ← hm]
    have : Real.log (μ / 2 + a) < Real.log (μ + a) := Real.log_lt_log (by positivity) (by linarith)
    nlinarith [mul_pos hn (mul_pos ha (sub_pos.2 this))]
  · exact ⟨m, a + 1, hm, by positivity, nb_larger s hs m hm hT hv μ a hμ ha⟩

/-- most likely parameters are not too small -/
theorem nb_lower (s : List ℕ) (m a : ℝ) (hm : 0 < m) (ha : 0 < a) (hT : tot s = s.length * m) (h0 : ∃ x ∈ s, x ≠ 0)
    (hmax : ∀ b, 0 < b → nbObj s m b ≤ nbObj s m a) : m / (4 * (s.length * m) ^ 2 + 1) < a := by
  by_contra h
  have h1 := score_zero s m hm h0 a ha (not_lt.1 h)
  have h2 : IsLocalMax (fun b => nbObj s m b) a := by
    filter_upwards [Ioi_mem_nhds ha] with b hb
    exact hmax b hb
  have := h2.hasDerivAt_eq_zero (nb_deriv s m a hm ha hT)
  linarith

end Verif.Ml
