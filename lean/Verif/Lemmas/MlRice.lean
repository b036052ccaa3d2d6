import Verif.Lemmas.Bessel
import Verif.Lemmas.BesselRatio
import Verif.Lemmas.MlNegBin
import Verif.Lemmas.MlConvex
import Verif.Spec.MlTrunc
import Mathlib.Tactic

/-!
# The likelihood of Rice distributions
-/

namespace Verif.Ml
open Verif Verif.Spec Set

/-- the part of the log-likelihood that depends on the parameters `p = (nu, sigma ^ 2)` -/
noncomputable def riceObj (s : List ℝ) (p : ℝ × ℝ) : ℝ :=
  (s.map fun x => -Real.log p.2 - (x ^ 2 + p.1 ^ 2) / (2 * p.2) + Real.log (besselI0 (x * p.1 / p.2))).sum

theorem rice_I0_le {z : ℝ} (hz : 0 ≤ z) : Real.log (besselI0 z) ≤ z := by
  rw [Real.log_le_iff_le_exp (Ratio.pos0 z)]
  have hp := Real.pi_pos
  have h : ∫ t in (0 : ℝ)..Real.pi, Real.exp (z * Real.cos t) ≤ ∫ t in (0 : ℝ)..Real.pi, Real.exp z :=
    intervalIntegral.integral_mono_on hp.le (Continuous.intervalIntegrable (by fun_prop) _ _) (by simp) fun t _ =>
      Real.exp_le_exp.2 (by nlinarith [Real.cos_le_one t])
  rw [intervalIntegral.integral_const, smul_eq_mul, sub_zero] at h
  unfold besselI0
  rw [div_mul_eq_mul_div, one_mul, div_le_iff₀ hp]
  linarith

theorem rice_obj_le (s : List ℝ) (hs : ∀ x ∈ s, 0 < x) {p : ℝ × ℝ} (h1 : 0 ≤ p.1) (h2 : 0 < p.2) :
    riceObj s p ≤ -(s.length * Real.log p.2) - (s.map fun x => (x - p.1) ^ 2).sum / (2 * p.2) := by
  have e : -(s.length * Real.log p.2) - (s.map fun x => (x - p.1) ^ 2).sum / (2 * p.2) =
      (s.map fun x => -Real.log p.2 + -(1 / (2 * p.2)) * (x - p.1) ^ 2).sum := by
    rw [lsum_add, lsum_const, lsum_mul]
    ring
  rw [e]
  refine lsum_le _ _ _ fun x hx => ?_
  have h3 := rice_I0_le (z := x * p.1 / p.2) (by have := hs x hx; positivity)
  have e2 : -(1 / (2 * p.2)) * (x - p.1) ^ 2 = -((x ^ 2 + p.1 ^ 2) / (2 * p.2)) + x * p.1 / p.2 := by
    field_simp
    ring
  rw [e2]
  linarith

theorem rice_obj_cont (s : List ℝ) : ContinuousOn (riceObj s) {p | 0 < p.2} := by
  unfold riceObj
  induction s with
  | nil => simpa using continuousOn_const
  | cons a t ih =>
    simp only [List.map_cons, List.sum_cons]
    refine ContinuousOn.add ?_ ih
    refine ContinuousOn.add (ContinuousOn.sub ?_ ?_) ?_
    · exact (ContinuousOn.log continuousOn_snd fun p hp => ne_of_gt hp).neg
    · refine ContinuousOn.div (by fun_prop) (by fun_prop) fun p hp => ?_
      have hp : 0 < p.2 := hp
      positivity
    · refine ContinuousOn.log ?_ fun p _ => (Ratio.pos0 _).ne'
      refine besselI0_cont.comp_continuousOn ?_
      refine ContinuousOn.div (by fun_prop) continuousOn_snd fun p hp => ne_of_gt hp

/-- a maximum among all `nu ≥ 0` -/
theorem rice_obj_max (s : List ℝ) (hs : ∀ x ∈ s, 0 < x) {x y : ℝ} (hx : x ∈ s) (hy : y ∈ s) (hxy : x ≠ y) :
    ∃ p : ℝ × ℝ, (0 ≤ p.1 ∧ 0 < p.2) ∧ ∀ q : ℝ × ℝ, 0 ≤ q.1 → 0 < q.2 → riceObj s q ≤ riceObj s p := by
  have hn0 : 1 ≤ s.length := List.length_pos_iff.2 (List.ne_nil_of_mem hx)
  obtain ⟨n, hn⟩ : ∃ n : ℝ, n = s.length := ⟨_, rfl⟩
  have hn1 : 1 ≤ n := by rw [hn]; exact_mod_cast hn0
  obtain ⟨V, hV⟩ : ∃ V, V = (x - y) ^ 2 / 2 := ⟨_, rfl⟩
  have hV0 : 0 < V := by
    have := sub_ne_zero.2 hxy
    rw [hV]
    positivity
  have hW : ∀ v : ℝ, V ≤ (s.map fun x => (x - v) ^ 2).sum := by
    intro v
    have := two_le_sum (f := fun x => (x - v) ^ 2) (fun x _ => sq_nonneg _) hx hy hxy
    rw [hV]
    nlinarith [sq_nonneg ((x - v) + (y - v))]
  have hW2 : ∀ v : ℝ, (x - v) ^ 2 ≤ (s.map fun x => (x - v) ^ 2).sum := fun v =>
    le_sum_of_mem (f := fun x => (x - v) ^ 2) (fun x _ => sq_nonneg _) hx
  have hup := fun p h1 h2 => rice_obj_le s hs (p := p) h1 h2
  rw [← hn] at hup
  obtain ⟨G, hG⟩ : ∃ G, G = riceObj s (0, 1) := ⟨_, rfl⟩
  -- small sigma
  obtain ⟨K1, hK1⟩ : ∃ K, K = n * (-1 - Real.log (V / (4 * n))) := ⟨_, rfl⟩
  have hδ : 0 < V / (4 * n) := by positivity
  have small : ∀ t : ℝ, 0 < t → -(n * Real.log t) ≤ V / (4 * t) + K1 := by
    intro t ht
    have h1 := Real.log_le_sub_one_of_pos (show 0 < V / (4 * n) * t⁻¹ by positivity)
    rw [Real.log_mul hδ.ne' (by positivity), Real.log_inv] at h1
    have h2 : n * (V / (4 * n) * t⁻¹) = V / (4 * t) := by field_simp
    rw [hK1, ← h2]
    nlinarith
  obtain ⟨a, ha⟩ : ∃ a, a = V / (4 * (|K1 - G| + 1)) := ⟨_, rfl⟩
  have ha0 : 0 < a := by rw [ha]; positivity
  obtain ⟨b, hb⟩ : ∃ b, b = Real.exp (|G| + 1) := ⟨_, rfl⟩
  have hb0 : 0 < b := by rw [hb]; positivity
  obtain ⟨B, hB⟩ : ∃ B, B = x + 1 + 2 * b * (|n * Real.log a| + |G| + 1) := ⟨_, rfl⟩
  obtain ⟨p, hp, hm⟩ := exists_max (riceObj s) {p : ℝ × ℝ | 0 ≤ p.1 ∧ 0 < p.2} (Icc 0 B ×ˢ Icc a b) (0, 1)
    ⟨le_rfl, one_pos⟩ (isCompact_Icc.prod isCompact_Icc) (fun p hp => ⟨hp.1.1, ha0.trans_le hp.2.1⟩)
    ((rice_obj_cont s).mono fun p hp => ha0.trans_le hp.2.1) (by
      rintro ⟨v, t⟩ ⟨h1, h2⟩ hout
      simp only at h1 h2
      have h3 := hup (v, t) h1 h2
      simp only at h3
      rw [← hG]
      by_cases hta : t < a
      · have h4 := small t h2
        have h5 : V / (2 * t) ≤ (s.map fun x => (x - v) ^ 2).sum / (2 * t) := by
          have := hW v
          gcongr
        have h6 : V / (2 * t) = 2 * (V / (4 * t)) := by field_simp; ring
        have h7 : |K1 - G| + 1 < V / (4 * t) := by
          rw [ha, lt_div_iff₀ (by positivity)] at hta
          rw [lt_div_iff₀ (by positivity)]
          linarith
        linarith [le_abs_self (K1 - G)]
      · have hta : a ≤ t := not_lt.1 hta
        by_cases htb : b < t
        · have h4 : |G| + 1 < Real.log t := by
            rw [hb] at htb
            exact (Real.lt_log_iff_exp_lt h2).2 htb
          have h5 : 0 ≤ (s.map fun x => (x - v) ^ 2).sum / (2 * t) := div_nonneg (hV0.le.trans (hW v)) (by positivity)
          have h6 := neg_abs_le G
          have h7 := abs_nonneg G
          nlinarith
        · have htb : t ≤ b := not_lt.1 htb
          have hvB : B < v := by
            by_contra h
            exact hout ⟨⟨h1, not_lt.1 h⟩, hta, htb⟩
          have h4 : Real.log a ≤ Real.log t := Real.log_le_log ha0 hta
          have h5 : |n * Real.log a| + |G| + 1 ≤ (s.map fun x => (x - v) ^ 2).sum / (2 * t) := by
            rw [le_div_iff₀ (by positivity)]
            have h6 := hW2 v
            have h7 : 0 ≤ |n * Real.log a| + |G| + 1 := by positivity
            have h8 : (|n * Real.log a| + |G| + 1) * (2 * t) ≤ 2 * b * (|n * Real.log a| + |G| + 1) := by nlinarith
            have h9 : 0 ≤ 2 * b * (|n * Real.log a| + |G| + 1) := by positivity
            nlinarith
          have h10 := neg_abs_le (n * Real.log a)
          have h11 := neg_abs_le G
          have h12 : n * Real.log a ≤ n * Real.log t := by nlinarith
          linarith)
  exact ⟨p, hp, fun q h1 h2 => hm q ⟨h1, h2⟩⟩

/-! ## Stationarity -/

private theorem lsum_deriv {f f' : ℝ → ℝ → ℝ} (s : List ℝ) {t : ℝ} (h : ∀ x ∈ s, HasDerivAt (f x) (f' x t) t) :
    HasDerivAt (fun u => (s.map fun x => f x u).sum) ((s.map fun x => f' x t).sum) t := by
  induction s with
  | nil => simpa using hasDerivAt_const t (0 : ℝ)
  | cons a l ih =>
    simp only [List.map_cons, List.sum_cons]
    exact (h a (by simp)).add (ih fun x hx => h x (List.mem_cons_of_mem _ hx))

theorem logI0_deriv (z : ℝ) : HasDerivAt (fun z => Real.log (besselI0 z)) (besselI1 z / besselI0 z) z :=
  (besselI0_deriv z).log (Ratio.pos0 z).ne'

/-- the weighted sum in both equations -/
noncomputable def riceT (s : List ℝ) (v t : ℝ) : ℝ := (s.map fun x => x * (besselI1 (x * v / t) / besselI0 (x * v / t))).sum

theorem rice_deriv_nu (s : List ℝ) (v : ℝ) {t : ℝ} (ht : 0 < t) :
    HasDerivAt (fun u => riceObj s (u, t)) ((riceT s v t - s.length * v) / t) v := by
  have h := lsum_deriv (f := fun x u => -Real.log t - (x ^ 2 + u ^ 2) / (2 * t) + Real.log (besselI0 (x * u / t)))
    (f' := fun x u => (1 / t) * (x * (besselI1 (x * u / t) / besselI0 (x * u / t))) + -(u / t)) s (t := v) (by
      intro x _
      have h1 : HasDerivAt (fun u : ℝ => (x ^ 2 + u ^ 2) / (2 * t)) (2 * v / (2 * t)) v := by
        have := (((hasDerivAt_id v).pow 2).const_add (x ^ 2)).div_const (2 * t)
        refine this.congr_deriv ?_
        simp
      have h2 : HasDerivAt (fun u : ℝ => x * u / t) (x / t) v := by
        have := ((hasDerivAt_id v).const_mul x).div_const t
        refine this.congr_deriv ?_
        simp
      have h3 := (logI0_deriv (x * v / t)).comp v h2
      refine ((h1.const_sub (-Real.log t)).add h3).congr_deriv ?_
      field_simp
      ring)
  refine h.congr_deriv ?_
  rw [lsum_add, lsum_mul, lsum_const]
  change 1 / t * riceT s v t + s.length * -(v / t) = _
  field_simp
  ring

theorem rice_deriv_var (s : List ℝ) (v : ℝ) {t : ℝ} (ht : 0 < t) :
    HasDerivAt (fun u => riceObj s (v, u))
      (((s.map fun x => x ^ 2).sum + s.length * v ^ 2 - 2 * s.length * t - 2 * v * riceT s v t) / (2 * t ^ 2)) t := by
  have h := lsum_deriv (f := fun x u => -Real.log u - (x ^ 2 + v ^ 2) / (2 * u) + Real.log (besselI0 (x * v / u)))
    (f' := fun x u => (1 / (2 * u ^ 2)) * x ^ 2 + (v ^ 2 / (2 * u ^ 2) - 1 / u) +
      -(v / u ^ 2) * (x * (besselI1 (x * v / u) / besselI0 (x * v / u)))) s (t := t) (by
      intro x _
      have h1 : HasDerivAt (fun u : ℝ => (x ^ 2 + v ^ 2) / (2 * u)) (-((x ^ 2 + v ^ 2) * 2) / (2 * t) ^ 2) t := by
        have := ((hasDerivAt_const t (x ^ 2 + v ^ 2)).div ((hasDerivAt_id t).const_mul 2) (by simpa using ht.ne'))
        refine this.congr_deriv ?_
        simp
      have h2 : HasDerivAt (fun u : ℝ => x * v / u) (-(x * v) / t ^ 2) t := by
        have := (hasDerivAt_const t (x * v)).div (hasDerivAt_id t) (by simpa using ht.ne')
        refine this.congr_deriv ?_
        simp
      have h3 := (logI0_deriv (x * v / t)).comp t h2
      refine ((((Real.hasDerivAt_log ht.ne').neg).sub h1).add h3).congr_deriv ?_
      field_simp
      ring)
  refine h.congr_deriv ?_
  rw [lsum_add, lsum_add, lsum_mul, lsum_mul, lsum_const]
  change 1 / (2 * t ^ 2) * (s.map fun x => x ^ 2).sum + s.length * (v ^ 2 / (2 * t ^ 2) - 1 / t) + -(v / t ^ 2) * riceT s v t = _
  field_simp
  ring

/-- the equations at a maximum: the second moments agree -/
theorem rice_max_eq (s : List ℝ) {p : ℝ × ℝ} (h1 : 0 ≤ p.1) (h2 : 0 < p.2)
    (hm : ∀ q : ℝ × ℝ, 0 < q.1 ∨ q.1 = p.1 → 0 < q.2 → riceObj s q ≤ riceObj s p) :
    (s.map fun x => x ^ 2).sum = s.length * (p.1 ^ 2 + 2 * p.2) ∧ (0 < p.1 → riceT s p.1 p.2 = s.length * p.1) := by
  obtain ⟨v, t⟩ := p
  simp only at h1 h2 hm ⊢
  have hT : 0 < v → riceT s v t = s.length * v := by
    intro hv
    have hloc : IsLocalMax (fun u => riceObj s (u, t)) v := by
      filter_upwards [lt_mem_nhds hv] with u hu
      exact hm (u, t) (Or.inl hu) h2
    have := hloc.hasDerivAt_eq_zero (rice_deriv_nu s v h2)
    have := (div_eq_zero_iff.1 this).resolve_right h2.ne'
    linarith
  refine ⟨?_, hT⟩
  have hloc : IsLocalMax (fun u => riceObj s (v, u)) t := by
    filter_upwards [lt_mem_nhds h2] with u hu
    exact hm (v, u) (Or.inr rfl) hu
  have h3 := hloc.hasDerivAt_eq_zero (rice_deriv_var s v h2)
  have h4 := (div_eq_zero_iff.1 h3).resolve_right (by positivity)
  rcases h1.lt_or_eq with hv | hv
  · rw [hT hv] at h4
    linarith
  · rw [← hv] at h4 ⊢
    linarith

/-! ## A lower bound -/

private theorem twice {H F G : ℝ → ℝ} (hH : ∀ y, HasDerivAt H (F y) y) (hF : ∀ y, HasDerivAt F (G y) y) (hG : ∀ y, 0 ≤ G y)
    (hF0 : F 0 = 0) (hH0 : H 0 = 0) (y : ℝ) : 0 ≤ H y := by
  have mF : Monotone F := monotone_of_deriv_nonneg (fun y => (hF y).differentiableAt) fun y => by rw [(hF y).deriv]; exact hG y
  have cH : Continuous H := continuous_iff_continuousAt.2 fun y => (hH y).continuousAt
  rcases le_total 0 y with h | h
  · have : MonotoneOn H (Ici 0) := by
      refine monotoneOn_of_deriv_nonneg (convex_Ici 0) cH.continuousOn (fun y _ => (hH y).differentiableAt.differentiableWithinAt) ?_
      intro z hz
      rw [interior_Ici] at hz
      rw [(hH z).deriv, ← hF0]
      exact mF (le_of_lt hz)
    rw [← hH0]
    exact this self_mem_Ici h h
  · have : AntitoneOn H (Iic 0) := by
      refine antitoneOn_of_deriv_nonpos (convex_Iic 0) cH.continuousOn (fun y _ => (hH y).differentiableAt.differentiableWithinAt) ?_
      intro z hz
      rw [interior_Iic] at hz
      rw [(hH z).deriv, ← hF0]
      exact mF (le_of_lt hz)
    rw [← hH0]
    exact this h self_mem_Iic h

theorem exp_six (y : ℝ) : 1 + y + y ^ 2 / 2 + y ^ 3 / 6 + y ^ 4 / 24 + y ^ 5 / 120 ≤ Real.exp y := by
  have mono : ∀ (n : ℕ) (c y : ℝ), HasDerivAt (fun y : ℝ => y ^ (n + 1) / c) ((n + 1 : ℕ) * y ^ n / c) y := by
    intro n c y
    have := ((hasDerivAt_id y).pow (n + 1)).div_const c
    refine this.congr_deriv ?_
    simp
  have d1 : ∀ y : ℝ, HasDerivAt (fun y : ℝ => Real.exp y - (1 + y)) (Real.exp y - 1) y := fun y =>
    ((Real.hasDerivAt_exp y).sub ((hasDerivAt_id y).const_add 1)).congr_deriv (by simp)
  have d2 : ∀ y : ℝ, HasDerivAt (fun y : ℝ => Real.exp y - (1 + y) - y ^ 2 / 2) (Real.exp y - (1 + y)) y := fun y =>
    ((d1 y).sub (mono 1 2 y)).congr_deriv (by push_cast; ring)
  have d3 : ∀ y : ℝ, HasDerivAt (fun y : ℝ => Real.exp y - (1 + y) - y ^ 2 / 2 - y ^ 3 / 6) (Real.exp y - (1 + y) - y ^ 2 / 2) y :=
    fun y => ((d2 y).sub (mono 2 6 y)).congr_deriv (by push_cast; ring)
  have d4 : ∀ y : ℝ, HasDerivAt (fun y : ℝ => Real.exp y - (1 + y) - y ^ 2 / 2 - y ^ 3 / 6 - y ^ 4 / 24)
      (Real.exp y - (1 + y) - y ^ 2 / 2 - y ^ 3 / 6) y :=
    fun y => ((d3 y).sub (mono 3 24 y)).congr_deriv (by push_cast; ring)
  have d5 : ∀ y : ℝ, HasDerivAt (fun y : ℝ => Real.exp y - (1 + y) - y ^ 2 / 2 - y ^ 3 / 6 - y ^ 4 / 24 - y ^ 5 / 120)
      (Real.exp y - (1 + y) - y ^ 2 / 2 - y ^ 3 / 6 - y ^ 4 / 24) y :=
    fun y => ((d4 y).sub (mono 4 120 y)).congr_deriv (by push_cast; ring)
  have h3 := twice d3 d2 (fun y => by linarith [Real.add_one_le_exp y]) (by simp) (by simp)
  have h5 := twice d5 d4 h3 (by simp) (by simp) y
  linarith

theorem rice_I0_ge (z : ℝ) : 1 + z ^ 2 / 4 + z ^ 4 / 64 ≤ besselI0 z := by
  have hp := Real.pi_pos
  have i : ∀ n : ℕ, IntervalIntegrable (fun t : ℝ => Real.cos t ^ n) MeasureTheory.volume 0 Real.pi := fun n =>
    Continuous.intervalIntegrable (by fun_prop) _ _
  have c1 : ∫ t in (0 : ℝ)..Real.pi, Real.cos t ^ 1 = 0 := by simp
  have c0 : ∫ t in (0 : ℝ)..Real.pi, Real.cos t ^ 0 = Real.pi := by simp
  have c2 : ∫ t in (0 : ℝ)..Real.pi, Real.cos t ^ 2 = Real.pi / 2 := by
    rw [integral_cos_pow 0, c0]; simp; ring
  have c3 : ∫ t in (0 : ℝ)..Real.pi, Real.cos t ^ 3 = 0 := by
    rw [integral_cos_pow 1, c1]; simp
  have c4 : ∫ t in (0 : ℝ)..Real.pi, Real.cos t ^ 4 = 3 * Real.pi / 8 := by
    rw [integral_cos_pow 2, c2]; simp; ring
  have c5 : ∫ t in (0 : ℝ)..Real.pi, Real.cos t ^ 5 = 0 := by
    rw [integral_cos_pow 3, c3]; simp
  have h : ∫ t in (0 : ℝ)..Real.pi, (Real.cos t ^ 0 + z * Real.cos t ^ 1 + z ^ 2 / 2 * Real.cos t ^ 2 +
      z ^ 3 / 6 * Real.cos t ^ 3 + z ^ 4 / 24 * Real.cos t ^ 4 + z ^ 5 / 120 * Real.cos t ^ 5) ≤
      ∫ t in (0 : ℝ)..Real.pi, Real.exp (z * Real.cos t) := by
    refine intervalIntegral.integral_mono_on hp.le (Continuous.intervalIntegrable (by fun_prop) _ _)
      (Continuous.intervalIntegrable (by fun_prop) _ _) fun t _ => ?_
    refine le_trans (le_of_eq ?_) (exp_six (z * Real.cos t))
    ring
  rw [intervalIntegral.integral_add (Continuous.intervalIntegrable (by fun_prop) _ _) ((i 5).const_mul _),
    intervalIntegral.integral_add (Continuous.intervalIntegrable (by fun_prop) _ _) ((i 4).const_mul _),
    intervalIntegral.integral_add (Continuous.intervalIntegrable (by fun_prop) _ _) ((i 3).const_mul _),
    intervalIntegral.integral_add (Continuous.intervalIntegrable (by fun_prop) _ _) ((i 2).const_mul _),
    intervalIntegral.integral_add (i 0) ((i 1).const_mul _)] at h
  simp only [intervalIntegral.integral_const_mul, c0, c1, c2, c3, c4, c5] at h
  unfold besselI0
  rw [div_mul_eq_mul_div, one_mul, le_div_iff₀ hp]
  linarith

/-- `log I0` near zero -/
theorem rice_logI0_ge (z : ℝ) : z ^ 2 / 4 + z ^ 4 / 64 - (z ^ 2 / 4 + z ^ 4 / 64) ^ 2 / 2 ≤ Real.log (besselI0 z) := by
  have h := rice_I0_ge z
  have hu : 0 ≤ z ^ 2 / 4 + z ^ 4 / 64 := by positivity
  refine le_trans ?_ (Real.log_le_log (by positivity) h)
  rw [add_assoc]
  generalize z ^ 2 / 4 + z ^ 4 / 64 = u at hu
  have h1 := Real.le_log_one_add_of_nonneg hu
  refine le_trans ?_ h1
  rw [le_div_iff₀ (by linarith)]
  nlinarith [pow_nonneg hu 3, pow_nonneg hu 2]

private theorem log_small {e : ℝ} (h0 : 0 ≤ e) (h1 : e ≤ 1 / 2) : e + e ^ 2 / 2 ≤ -Real.log (1 - e) := by
  have h2 : Real.log (1 - e) ≤ -(e + e ^ 2 / 2) := by
    rw [Real.log_le_iff_le_exp (by linarith)]
    refine le_trans ?_ (exp_six (-(e + e ^ 2 / 2)))
    obtain ⟨w, hw⟩ : ∃ w, w = e + e ^ 2 / 2 := ⟨_, rfl⟩
    have hw0 : 0 ≤ w := by rw [hw]; positivity
    have hw1 : w ≤ 5 / 4 * e := by rw [hw]; nlinarith
    have hw2 : w ≤ 1 := by linarith
    have h3 : w ^ 3 ≤ 2 * e ^ 3 := by
      have := pow_le_pow_left₀ hw0 hw1 3
      have he : 0 ≤ e ^ 3 := by positivity
      nlinarith
    have h4 : w ^ 5 ≤ w ^ 4 := by
      have : 0 ≤ w ^ 4 := by positivity
      nlinarith
    have h5 : 0 ≤ w ^ 4 := by positivity
    have h6 : w ^ 2 = e ^ 2 + e ^ 3 + e ^ 4 / 4 := by rw [hw]; ring
    have h7 : 0 ≤ e ^ 4 := by positivity
    have h8 : 0 ≤ e ^ 3 := by positivity
    rw [← hw]
    have e1 : 1 + -w + (-w) ^ 2 / 2 + (-w) ^ 3 / 6 + (-w) ^ 4 / 24 + (-w) ^ 5 / 120 =
        1 - w + w ^ 2 / 2 - w ^ 3 / 6 + w ^ 4 / 24 - w ^ 5 / 120 := by ring
    rw [e1, h6]
    rw [hw] at *
    nlinarith
  linarith

/-- a little `nu` is better than none if the fourth moment is small -/
theorem rice_improve (s : List ℝ) (hs : s ≠ [])
    (h4 : (s.length : ℝ) * (s.map fun x => x ^ 4).sum < 2 * (s.map fun x => x ^ 2).sum ^ 2) {t : ℝ} (ht : 0 < t)
    (hm : (s.map fun x => x ^ 2).sum = s.length * (2 * t)) :
    ∃ q : ℝ × ℝ, 0 < q.1 ∧ 0 < q.2 ∧ riceObj s (0, t) < riceObj s q := by
  obtain ⟨n, hn⟩ : ∃ n : ℝ, n = s.length := ⟨_, rfl⟩
  have hn0 : 0 < n := by
    rw [hn]
    exact_mod_cast List.length_pos_iff.2 hs
  rw [← hn] at h4 hm
  obtain ⟨S, hS⟩ : ∃ S : ℕ → ℝ, ∀ k, S k = (s.map fun x => (x ^ 2 / (2 * t)) ^ k).sum := ⟨_, fun _ => rfl⟩
  have hS1 : S 1 = n := by
    rw [hS]
    have : (s.map fun x => (x ^ 2 / (2 * t)) ^ 1) = s.map fun x => (1 / (2 * t)) * x ^ 2 := by
      refine List.map_congr_left fun x _ => ?_
      ring
    rw [this, lsum_mul, hm]
    field_simp
  have hS2 : S 2 < 2 * n := by
    rw [hS]
    have : (s.map fun x => (x ^ 2 / (2 * t)) ^ 2) = s.map fun x => (1 / (2 * t) ^ 2) * x ^ 4 := by
      refine List.map_congr_left fun x _ => ?_
      ring
    rw [this, lsum_mul, div_mul_eq_mul_div, one_mul, div_lt_iff₀ (by positivity)]
    rw [hm] at h4
    have : n * (s.map fun x => x ^ 4).sum < n * (2 * n * (2 * t) ^ 2) := by nlinarith
    exact lt_of_mul_lt_mul_left this hn0.le
  -- choose a small step
  obtain ⟨e, hpos, he0, he1⟩ : ∃ e : ℝ, 0 < n / 2 - S 2 / (4 * (1 - e) ^ 4) - e * S 3 / (4 * (1 - e) ^ 6) -
      e ^ 2 * S 4 / (32 * (1 - e) ^ 8) ∧ 0 < e ∧ e < 1 / 2 := by
    have hc : ContinuousAt (fun e : ℝ => n / 2 - S 2 / (4 * (1 - e) ^ 4) - e * S 3 / (4 * (1 - e) ^ 6) -
      e ^ 2 * S 4 / (32 * (1 - e) ^ 8)) 0 := by
      refine ContinuousAt.sub (ContinuousAt.sub (ContinuousAt.sub continuousAt_const ?_) ?_) ?_
      · exact ContinuousAt.div (by fun_prop) (by fun_prop) (by norm_num)
      · exact ContinuousAt.div (by fun_prop) (by fun_prop) (by norm_num)
      · exact ContinuousAt.div (by fun_prop) (by fun_prop) (by norm_num)
    have h0 := hc.tendsto.eventually (lt_mem_nhds (a := 0) (by norm_num; linarith))
    have h1 : ∀ᶠ e : ℝ in nhdsWithin 0 (Ioi 0), e < 1 / 2 := nhdsWithin_le_nhds (gt_mem_nhds (by norm_num))
    have h2 := h0.filter_mono (nhdsWithin_le_nhds (s := Ioi (0 : ℝ)))
    obtain ⟨e, ⟨a1, a2⟩, a3⟩ := ((h2.and h1).and self_mem_nhdsWithin).exists
    exact ⟨e, a1, a3, a2⟩
  have h1e : 0 < 1 - e := by linarith
  have hv0 : 0 < √(2 * t * e) := Real.sqrt_pos.2 (by positivity)
  have hv2 : √(2 * t * e) ^ 2 = 2 * t * e := Real.sq_sqrt (by positivity)
  refine ⟨(√(2 * t * e), t * (1 - e)), hv0, by positivity, ?_⟩
  obtain ⟨v, hv⟩ : ∃ v, v = √(2 * t * e) := ⟨_, rfl⟩
  rw [← hv] at hv0 hv2 ⊢
  have hold : riceObj s (0, t) = -(n * Real.log t) - n := by
    unfold riceObj
    have : (s.map fun x => -Real.log (0, t).2 - (x ^ 2 + (0, t).1 ^ 2) / (2 * (0, t).2) + Real.log (besselI0 (x * (0, t).1 / (0, t).2))) =
        s.map fun x => -Real.log t + -(1 / (2 * t)) * x ^ 2 := by
      refine List.map_congr_left fun x _ => ?_
      simp only [mul_zero, zero_div, besselI0_zero, Real.log_one]
      ring
    rw [this, lsum_add, lsum_const, lsum_mul, hm, ← hn]
    field_simp
    ring
  obtain ⟨k, hk⟩ : ∃ k, k = e / (1 - e) ^ 2 := ⟨_, rfl⟩
  have hnew : (s.map fun x => (-(Real.log t + Real.log (1 - e)) - e / (1 - e)) + (-(1 / (1 - e)) + k) * (x ^ 2 / (2 * t)) ^ 1 +
      -(k ^ 2 / 4) * (x ^ 2 / (2 * t)) ^ 2 + -(k ^ 3 / 4) * (x ^ 2 / (2 * t)) ^ 3 + -(k ^ 4 / 32) * (x ^ 2 / (2 * t)) ^ 4).sum ≤
      riceObj s (v, t * (1 - e)) := by
    unfold riceObj
    refine lsum_le _ _ _ fun x _ => ?_
    simp only
    have h := rice_logI0_ge (x * v / (t * (1 - e)))
    have hz : (x * v / (t * (1 - e))) ^ 2 / 4 = k * (x ^ 2 / (2 * t)) := by
      rw [div_pow, mul_pow, hv2, hk]
      field_simp
      ring
    have hz4 : (x * v / (t * (1 - e))) ^ 4 / 64 = (k * (x ^ 2 / (2 * t))) ^ 2 / 4 := by
      rw [← hz]
      ring
    rw [hz, hz4] at h
    have hq : (x ^ 2 + v ^ 2) / (2 * (t * (1 - e))) = 1 / (1 - e) * (x ^ 2 / (2 * t)) ^ 1 + e / (1 - e) := by
      rw [hv2]
      field_simp
    rw [Real.log_mul ht.ne' h1e.ne', hq]
    refine le_trans (le_of_eq ?_) (add_le_add le_rfl h)
    ring
  rw [lsum_add, lsum_add, lsum_add, lsum_add, lsum_const, lsum_mul, lsum_mul, lsum_mul, lsum_mul, ← hS, ← hS, ← hS, ← hS, hS1,
    ← hn] at hnew
  refine lt_of_lt_of_le ?_ hnew
  rw [hold]
  have hl := log_small he0.le he1.le
  have hid : -(e / (1 - e)) - 1 / (1 - e) + k + 1 = -e + e ^ 3 / (1 - e) ^ 2 := by
    rw [hk]
    field_simp
    ring
  have hek : k ^ 2 / 4 * S 2 + k ^ 3 / 4 * S 3 + k ^ 4 / 32 * S 4 =
      e ^ 2 * (S 2 / (4 * (1 - e) ^ 4) + e * S 3 / (4 * (1 - e) ^ 6) + e ^ 2 * S 4 / (32 * (1 - e) ^ 8)) := by
    rw [hk]
    field_simp
  have h3 : 0 ≤ e ^ 3 / (1 - e) ^ 2 := by positivity
  have h5 : 0 < e ^ 2 * (n / 2 - S 2 / (4 * (1 - e) ^ 4) - e * S 3 / (4 * (1 - e) ^ 6) - e ^ 2 * S 4 / (32 * (1 - e) ^ 8)) := by
    positivity
  have h6 : n * (e ^ 2 / 2) ≤ n * (-Real.log (1 - e) + (-(e / (1 - e)) - 1 / (1 - e) + k + 1)) := by
    refine mul_le_mul_of_nonneg_left ?_ hn0.le
    rw [hid]
    linarith
  nlinarith

/-- a constant sample -/
theorem rice_I0_large {z : ℝ} (hz : 1 ≤ z) : Real.exp (z - 1 / 2) / (Real.pi * √z) ≤ besselI0 z := by
  have hp := Real.pi_pos
  have hz0 : 0 < z := by linarith
  have hsq : 0 < √z := Real.sqrt_pos.2 hz0
  have h1z : 1 ≤ √z := Real.one_le_sqrt.2 hz
  have hd : 1 / √z ≤ Real.pi := by
    rw [div_le_iff₀ hsq]
    nlinarith [Real.pi_gt_three]
  have hi : ∀ a b, IntervalIntegrable (fun t => Real.exp (z * Real.cos t)) MeasureTheory.volume a b := fun a b =>
    Continuous.intervalIntegrable (by fun_prop) a b
  have h1 : ∫ t in (0 : ℝ)..(1 / √z), Real.exp (z - 1 / 2) ≤ ∫ t in (0 : ℝ)..(1 / √z), Real.exp (z * Real.cos t) := by
    refine intervalIntegral.integral_mono_on (by positivity) (by simp) (hi _ _) fun t ht => Real.exp_le_exp.2 ?_
    have h2 := Real.one_sub_sq_div_two_le_cos (x := t)
    have h3 : t ^ 2 ≤ 1 / z := by
      have : t ^ 2 ≤ (1 / √z) ^ 2 := pow_le_pow_left₀ ht.1 ht.2 2
      rwa [div_pow, Real.sq_sqrt hz0.le, one_pow] at this
    rw [le_div_iff₀ hz0] at h3
    nlinarith
  have h2 : ∫ t in (0 : ℝ)..(1 / √z), Real.exp (z * Real.cos t) ≤ ∫ t in (0 : ℝ)..Real.pi, Real.exp (z * Real.cos t) := by
    rw [← intervalIntegral.integral_add_adjacent_intervals (hi 0 (1 / √z)) (hi (1 / √z) Real.pi)]
    have := intervalIntegral.integral_nonneg (μ := MeasureTheory.volume) (f := fun t => Real.exp (z * Real.cos t)) hd
      fun t _ => (Real.exp_pos _).le
    linarith
  rw [intervalIntegral.integral_const, smul_eq_mul, sub_zero] at h1
  unfold besselI0
  have h3 := h1.trans h2
  calc Real.exp (z - 1 / 2) / (Real.pi * √z) = 1 / Real.pi * (1 / √z * Real.exp (z - 1 / 2)) := by field_simp
    _ ≤ _ := mul_le_mul_of_nonneg_left h3 (by positivity)

end Verif.Ml
