import Verif.Lemmas.LawGamma
import Mathlib.NumberTheory.Harmonic.GammaDeriv
import Mathlib.Analysis.SpecialFunctions.Gamma.Beta
import Mathlib.Analysis.Complex.RealDeriv
import Mathlib.Analysis.Calculus.Deriv.Shift

/-!
# Moments of the logarithm under the gamma law: Gumbel and Moyal

The first two derivatives of the gamma function are integrals with powers of the logarithm; the reflection and the
duplication formula give the variance of the logarithm at 1/2 and 1.
-/

namespace Verif.Law
open MeasureTheory Verif.Spec Set Filter Asymptotics
open scoped Topology

/-- integral of a power of the logarithm -/
noncomputable def logInt (k : ℕ) (a : ℝ) : ℝ := ∫ t in Ioi 0, t ^ (a - 1) * (Real.log t ^ k * Real.exp (-t))

private noncomputable def fn (k : ℕ) : ℝ → ℂ := fun t => ((Real.log t ^ k * Real.exp (-t) : ℝ) : ℂ)

private theorem fn_succ (k : ℕ) : (fun t => Real.log t • fn k t) = fn (k + 1) := by
  funext t
  simp only [fn, Complex.real_smul, ← Complex.ofReal_mul]
  congr 1; ring

private theorem fn_cont (k : ℕ) : ContinuousOn (fn k) (Ioi 0) := by
  have : ContinuousOn Real.log (Ioi (0 : ℝ)) :=
    Real.continuousOn_log.mono (subset_compl_singleton_iff.mpr self_notMem_Ioi)
  unfold fn
  exact Complex.continuous_ofReal.comp_continuousOn ((this.pow k).mul (by fun_prop))

private theorem fn_top (k : ℕ) (a : ℝ) : fn k =O[atTop] (fun t : ℝ => t ^ (-a)) := by
  rw [← isBigO_norm_left]
  simp only [fn, Complex.norm_real, isBigO_norm_left]
  have h1 : (fun t : ℝ => Real.log t ^ k) =O[atTop] (fun t : ℝ => t) := by
    have := Real.isLittleO_pow_log_id_atTop (n := k)
    exact this.isBigO
  have h2 : (fun t : ℝ => Real.exp (-t)) =O[atTop] fun t : ℝ => t ^ (-a - 1) := by
    simpa only [neg_one_mul] using (isLittleO_exp_neg_mul_rpow_atTop zero_lt_one (-a - 1)).isBigO
  refine (h1.mul h2).congr' (EventuallyEq.refl _ _) ?_
  filter_upwards [eventually_gt_atTop 0] with t ht
  rw [Real.rpow_sub_one ht.ne']; field_simp

private theorem fn_bot (k : ℕ) {b : ℝ} (hb : 0 < b) : fn k =O[𝓝[>] 0] (fun t : ℝ => t ^ (-b)) := by
  rw [← isBigO_norm_left]
  simp only [fn, Complex.norm_real, isBigO_norm_left]
  have h1 : (fun t : ℝ => Real.log t ^ k) =O[𝓝[>] 0] (fun t : ℝ => t ^ (-b)) := by
    have h := (Real.isLittleO_pow_log_id_atTop (n := k)).isBigO
    rcases Nat.eq_zero_or_pos k with rfl | hk
    · simp only [pow_zero]
      refine IsBigO.of_bound 1 ?_
      filter_upwards [Ioo_mem_nhdsGT (zero_lt_one' ℝ)] with t ht
      rw [norm_one, one_mul, Real.norm_of_nonneg (by have := ht.1; positivity)]
      exact Real.one_le_rpow_of_pos_of_le_one_of_nonpos ht.1 ht.2.le (by linarith)
    · have h0 := isLittleO_log_rpow_nhdsGT_zero (r := -(b / k)) (by
        have : (0 : ℝ) < k := by exact_mod_cast hk
        simp only [neg_lt_zero]; positivity)
      have h2 := h0.isBigO.pow k
      refine h2.congr' (EventuallyEq.refl _ _) ?_
      filter_upwards [self_mem_nhdsWithin] with t ht
      have ht : 0 < t := ht
      rw [← Real.rpow_natCast, ← Real.rpow_mul ht.le]
      congr 1
      have : (k : ℝ) ≠ 0 := by exact_mod_cast hk.ne'
      field_simp
  have h2 : (fun t : ℝ => Real.exp (-t)) =O[𝓝[>] 0] fun _ : ℝ => (1 : ℝ) := by
    refine IsBigO.of_bound 1 ?_
    filter_upwards [self_mem_nhdsWithin] with t ht
    have ht : 0 < t := ht
    rw [norm_one, mul_one, Real.norm_of_nonneg (by positivity)]
    exact Real.exp_le_one_iff.mpr (by linarith)
  simpa using h1.mul h2

private theorem mellin_real (k : ℕ) (a : ℝ) : mellin (fn k) (a : ℂ) = (logInt k a : ℂ) := by
  unfold mellin logInt
  rw [← integral_complex_ofReal]
  refine setIntegral_congr_fun measurableSet_Ioi fun t ht => ?_
  have ht : 0 < t := ht
  simp only [fn, smul_eq_mul]
  push_cast
  rw [Complex.ofReal_cpow ht.le]
  push_cast
  rfl

private theorem conv (k : ℕ) {a : ℝ} (ha : 0 < a) :
    MellinConvergent (fn (k + 1)) (a : ℂ) ∧ HasDerivAt (mellin (fn k)) (mellin (fn (k + 1)) a) (a : ℂ) := by
  have h := mellin_hasDerivAt_of_isBigO_rpow (f := fn k) (s := (a : ℂ)) (a := a + 1) (b := a / 2)
    ((fn_cont k).locallyIntegrableOn measurableSet_Ioi) (fn_top k _) (by simp) (fn_bot k (by linarith)) (by simp; linarith)
  rwa [fn_succ] at h

private theorem conv0 (k : ℕ) {a : ℝ} (ha : 0 < a) : MellinConvergent (fn k) (a : ℂ) :=
  mellinConvergent_of_isBigO_rpow (a := a + 1) (b := a / 2) ((fn_cont k).locallyIntegrableOn measurableSet_Ioi) (fn_top k _)
    (by simp) (fn_bot k (by linarith)) (by simp; linarith)

theorem logInt_HIs (k : ℕ) {a : ℝ} (ha : 0 < a) :
    HIs (Ioi 0) (fun t => t ^ (a - 1) * (Real.log t ^ k * Real.exp (-t))) (logInt k a) := by
  refine ⟨?_, rfl⟩
  have h : IntegrableOn (fun t : ℝ => ((t : ℂ) ^ ((a : ℂ) - 1) • fn k t).re) (Ioi 0) := (conv0 k ha).re
  refine h.congr_fun (fun t ht => ?_) measurableSet_Ioi
  have ht : 0 < t := ht
  have : (t : ℂ) ^ ((a : ℂ) - 1) = ((t ^ (a - 1) : ℝ) : ℂ) := by
    rw [Complex.ofReal_cpow ht.le]; push_cast; rfl
  simp only [fn, smul_eq_mul, this, ← Complex.ofReal_mul, Complex.ofReal_re]

theorem logInt_deriv (k : ℕ) {a : ℝ} (ha : 0 < a) : HasDerivAt (logInt k) (logInt (k + 1) a) a := by
  have h := (conv k ha).2.real_of_complex
  simpa only [mellin_real, Complex.ofReal_re] using h

theorem logInt_zero {a : ℝ} (ha : 0 < a) : logInt 0 a = Real.Gamma a := by
  rw [Real.Gamma_eq_integral ha]
  unfold logInt
  refine setIntegral_congr_fun measurableSet_Ioi fun t _ => ?_
  simp [mul_comm]

/-- the mean of the logarithm -/
noncomputable def psi (a : ℝ) : ℝ := logInt 1 a / Real.Gamma a

/-- the variance of the logarithm -/
noncomputable def tri (a : ℝ) : ℝ := logInt 2 a / Real.Gamma a - psi a ^ 2

theorem Gamma_deriv {a : ℝ} (ha : 0 < a) : HasDerivAt Real.Gamma (logInt 1 a) a := by
  refine (logInt_deriv 0 ha).congr_of_eventuallyEq ?_
  filter_upwards [lt_mem_nhds ha] with x hx
  exact (logInt_zero hx).symm

theorem logGamma_deriv {a : ℝ} (ha : 0 < a) : HasDerivAt (fun x => Real.log (Real.Gamma x)) (psi a) a :=
  (Gamma_deriv ha).log (Real.Gamma_pos_of_pos ha).ne'

theorem psi_deriv {a : ℝ} (ha : 0 < a) : HasDerivAt psi (tri a) a := by
  have hG := (Real.Gamma_pos_of_pos ha).ne'
  have h := (logInt_deriv 1 ha).div (Gamma_deriv ha) hG
  refine h.congr_deriv ?_
  unfold tri psi
  field_simp

theorem psi_one : psi 1 = -Real.eulerMascheroniConstant := by
  unfold psi
  rw [Real.Gamma_one, div_one]
  exact (Gamma_deriv one_pos).unique Real.hasDerivAt_Gamma_one

theorem psi_half : psi (1 / 2) = -(Real.eulerMascheroniConstant + 2 * Real.log 2) := by
  unfold psi
  rw [Real.Gamma_one_half_eq, (Gamma_deriv one_half_pos).unique Real.hasDerivAt_Gamma_one_half]
  have := Real.sqrt_pos.mpr Real.pi_pos
  field_simp

private theorem reflection {s : ℝ} (h1 : -(1 / 2) < s) (h2 : s < 1 / 2) :
    psi (1 / 2 + s) - psi (1 / 2 - s) = Real.pi * (Real.sin (Real.pi * s) / Real.cos (Real.pi * s)) := by
  have hcos : ∀ x : ℝ, -(1 / 2) < x → x < 1 / 2 → 0 < Real.cos (Real.pi * x) := fun x a b =>
    Real.cos_pos_of_mem_Ioo ⟨by nlinarith [Real.pi_pos], by nlinarith [Real.pi_pos]⟩
  have d1 : HasDerivAt (fun x => Real.log (Real.Gamma (1 / 2 + x))) (psi (1 / 2 + s)) s :=
    (logGamma_deriv (a := 1 / 2 + s) (by linarith)).comp_const_add (1 / 2) s
  have d2 : HasDerivAt (fun x => Real.log (Real.Gamma (1 / 2 - x))) (-psi (1 / 2 - s)) s :=
    (logGamma_deriv (a := 1 / 2 - s) (by linarith)).comp_const_sub (1 / 2) s
  have d3 : HasDerivAt (fun x => Real.log (Real.cos (Real.pi * x)))
      (-Real.sin (Real.pi * s) * Real.pi / Real.cos (Real.pi * s)) s := by
    have := ((hasDerivAt_id s).const_mul Real.pi).cos.log (hcos s h1 h2).ne'
    simpa using this
  have d := (d1.add d2).add d3
  have c : HasDerivAt (fun x => Real.log (Real.Gamma (1 / 2 + x)) + Real.log (Real.Gamma (1 / 2 - x)) +
      Real.log (Real.cos (Real.pi * x))) 0 s := by
    refine (hasDerivAt_const s (Real.log Real.pi)).congr_of_eventuallyEq ?_
    filter_upwards [Ioo_mem_nhds h1 h2] with x hx
    have g1 := Real.Gamma_pos_of_pos (show 0 < 1 / 2 + x by linarith [hx.1])
    have g2 := Real.Gamma_pos_of_pos (show 0 < 1 / 2 - x by linarith [hx.2])
    have hc := hcos x hx.1 hx.2
    rw [← Real.log_mul g1.ne' g2.ne', ← Real.log_mul (by positivity) hc.ne']
    congr 1
    have r := Real.Gamma_mul_Gamma_one_sub (1 / 2 + x)
    rw [show 1 - (1 / 2 + x) = 1 / 2 - x by ring, show Real.pi * (1 / 2 + x) = Real.pi * x + Real.pi / 2 by ring,
      Real.sin_add_pi_div_two] at r
    rw [r]; field_simp
  have := d.unique c
  have : psi (1 / 2 + s) - psi (1 / 2 - s) = Real.sin (Real.pi * s) * Real.pi / Real.cos (Real.pi * s) := by
    rw [neg_mul, neg_div] at this; linarith
  rw [this]; ring

theorem tri_half : tri (1 / 2) = Real.pi ^ 2 / 2 := by
  have d1 : HasDerivAt (fun x => psi (1 / 2 + x)) (tri (1 / 2)) 0 := by
    have : HasDerivAt psi (tri (1 / 2)) (1 / 2 + 0) := by rw [add_zero]; exact psi_deriv one_half_pos
    exact this.comp_const_add (1 / 2) 0
  have d2 : HasDerivAt (fun x => psi (1 / 2 - x)) (-tri (1 / 2)) 0 := by
    have : HasDerivAt psi (tri (1 / 2)) (1 / 2 - 0) := by rw [sub_zero]; exact psi_deriv one_half_pos
    exact this.comp_const_sub (1 / 2) 0
  have hc : Real.cos (Real.pi * 0) ≠ 0 := by simp
  have d3 : HasDerivAt (fun x => Real.pi * (Real.sin (Real.pi * x) / Real.cos (Real.pi * x))) (Real.pi * Real.pi) 0 := by
    have := ((((hasDerivAt_id (0 : ℝ)).const_mul Real.pi).sin).div (((hasDerivAt_id (0 : ℝ)).const_mul Real.pi).cos)
      hc).const_mul Real.pi
    simpa using this
  have e : (fun x => psi (1 / 2 + x) - psi (1 / 2 - x)) =ᶠ[𝓝 0]
      fun x => Real.pi * (Real.sin (Real.pi * x) / Real.cos (Real.pi * x)) := by
    filter_upwards [Ioo_mem_nhds (show -(1 / 2 : ℝ) < 0 by norm_num) (show (0 : ℝ) < 1 / 2 by norm_num)] with x hx
    exact reflection hx.1 hx.2
  have := (d1.sub d2).unique (d3.congr_of_eventuallyEq e)
  linarith

private theorem double {f : ℝ → ℝ} {d s : ℝ} (h : HasDerivAt f d (2 * s)) : HasDerivAt (fun x => f (2 * x)) (d * 2) s := by
  have h2 : HasDerivAt (fun x : ℝ => 2 * x) 2 s := by simpa using (hasDerivAt_id s).const_mul (2 : ℝ)
  exact HasDerivAt.comp (h₂ := f) (h := fun x => 2 * x) s h h2

private theorem duplication {s : ℝ} (hs : 0 < s) : psi s + psi (s + 1 / 2) = 2 * psi (2 * s) - 2 * Real.log 2 := by
  have d1 := logGamma_deriv hs
  have d2 : HasDerivAt (fun x => Real.log (Real.Gamma (x + 1 / 2))) (psi (s + 1 / 2)) s :=
    (logGamma_deriv (a := s + 1 / 2) (by linarith)).comp_add_const s (1 / 2)
  have d3 : HasDerivAt (fun x => Real.log (Real.Gamma (2 * x))) (psi (2 * s) * 2) s :=
    double (logGamma_deriv (a := 2 * s) (by linarith))
  have d4 : HasDerivAt (fun x : ℝ => (1 - 2 * x) * Real.log 2 + Real.log √Real.pi) (-2 * Real.log 2) s := by
    have := ((((hasDerivAt_id s).const_mul 2).const_sub 1).mul_const (Real.log 2)).add_const (Real.log √Real.pi)
    simpa using this
  have e : (fun x => Real.log (Real.Gamma x) + Real.log (Real.Gamma (x + 1 / 2))) =ᶠ[𝓝 s]
      fun x => Real.log (Real.Gamma (2 * x)) + ((1 - 2 * x) * Real.log 2 + Real.log √Real.pi) := by
    filter_upwards [lt_mem_nhds hs] with x hx
    have g1 := Real.Gamma_pos_of_pos hx
    have g2 := Real.Gamma_pos_of_pos (show 0 < x + 1 / 2 by linarith)
    have g3 := Real.Gamma_pos_of_pos (show 0 < 2 * x by linarith)
    have hp := Real.sqrt_pos.mpr Real.pi_pos
    rw [← Real.log_mul g1.ne' g2.ne', Real.Gamma_mul_Gamma_add_half, Real.log_mul (by positivity) hp.ne',
      Real.log_mul g3.ne' (by positivity), Real.log_rpow two_pos]
    ring
  have := (d1.add d2).unique ((d3.add d4).congr_of_eventuallyEq e)
  linarith

theorem tri_one : tri 1 = Real.pi ^ 2 / 6 := by
  have d1 := psi_deriv one_half_pos
  have d2 : HasDerivAt (fun x => psi (x + 1 / 2)) (tri 1) (1 / 2) := by
    have : HasDerivAt psi (tri 1) (1 / 2 + 1 / 2) := by rw [add_halves]; exact psi_deriv one_pos
    exact this.comp_add_const (1 / 2) (1 / 2)
  have d3 : HasDerivAt (fun x => 2 * psi (2 * x) - 2 * Real.log 2) (2 * (tri 1 * 2)) (1 / 2) := by
    have : HasDerivAt psi (tri 1) (2 * (1 / 2)) := by
      rw [show (2 : ℝ) * (1 / 2) = 1 by norm_num]; exact psi_deriv one_pos
    exact ((double this).const_mul 2).sub_const (2 * Real.log 2)
  have e : (fun x => psi x + psi (x + 1 / 2)) =ᶠ[𝓝 (1 / 2)] fun x => 2 * psi (2 * x) - 2 * Real.log 2 := by
    filter_upwards [lt_mem_nhds (one_half_pos (α := ℝ))] with x hx
    exact duplication hx
  have h := (d1.add d2).unique (d3.congr_of_eventuallyEq e)
  rw [tri_half] at h
  linarith

/-! ## The law of minus the logarithm of a gamma variable -/

theorem logGammaRaw {a : ℝ} (ha : 0 < a) :
    Raw (fun w => 1 / Real.Gamma a * Real.exp (-(a * w)) * Real.exp (-Real.exp (-w))) (-psi a) (tri a + psi a ^ 2) := by
  have hG := Real.Gamma_pos_of_pos ha
  have key : ∀ k : ℕ, HI (fun w => (-w) ^ k * (1 / Real.Gamma a * Real.exp (-(a * w)) * Real.exp (-Real.exp (-w))))
      (1 / Real.Gamma a * logInt k a) := by
    intro k
    have h := (HIs.exp.mp (logInt_HIs k ha)).neg.cmul (1 / Real.Gamma a)
    refine h.congr fun w => ?_
    rw [Real.log_exp, ← Real.exp_mul, ← mul_assoc (Real.exp (-w)) (Real.exp _), ← Real.exp_add,
      show -w + -w * (a - 1) = -(a * w) by ring]
    ring
  refine ⟨by fun_prop, fun x => by positivity, ?_, ?_, ?_⟩
  · refine (key 0).congr (fun w => by rw [pow_zero, one_mul]) |>.val ?_
    rw [logInt_zero ha]; field_simp
  · refine ((key 1).cmul (-1)).congr (fun w => by ring) |>.val ?_
    unfold psi; ring
  · refine (key 2).congr (fun w => by ring) |>.val ?_
    unfold tri; ring

theorem gumbel {b : ℝ} (hb : 0 < b) (m : ℝ) : HasMoments (ofPdf (gumbelPdf m b))
    (m + b * Real.eulerMascheroniConstant) (Real.pi ^ 2 / 6 * b ^ 2) := by
  have h := (((logGammaRaw one_pos).affine m hb).congr (g := gumbelPdf m b) fun x => ?_).moments
  · rw [psi_one, tri_one] at h
    convert h using 1
    · ring
    · ring
  · unfold gumbelPdf
    rw [Real.Gamma_one, neg_add, Real.exp_add]
    simp only [one_mul, div_one]

theorem moyal {s : ℝ} (hs : 0 < s) (m : ℝ) : HasMoments (ofPdf (moyalPdf m s))
    (m + s * (Real.eulerMascheroniConstant + Real.log 2)) (Real.pi ^ 2 / 2 * s ^ 2) := by
  have h0 := (logGammaRaw one_half_pos).affine (-Real.log 2) one_pos
  have h := ((h0.affine m hs).congr (g := moyalPdf m s) fun x => ?_).moments
  · rw [psi_half, tri_half] at h
    convert h using 1
    · ring
    · ring
  · unfold moyalPdf
    set z := (x - m) / s
    have e1 : Real.exp (-((z - -Real.log 2) / 1)) = Real.exp (-z) / 2 := by
      rw [div_one, sub_neg_eq_add, neg_add, Real.exp_add, Real.exp_neg (Real.log 2), Real.exp_log two_pos]; ring
    have e2 : Real.exp (-(1 / 2 * ((z - -Real.log 2) / 1))) = Real.exp (-(1 / 2 * z)) / √2 := by
      rw [div_one, sub_neg_eq_add, mul_add, neg_add, Real.exp_add, Real.exp_neg (1 / 2 * Real.log 2), mul_comm (1 / 2) (Real.log 2),
        ← Real.rpow_def_of_pos two_pos, ← Real.sqrt_eq_rpow]; ring
    rw [e1, e2, Real.Gamma_one_half_eq, Real.sqrt_mul two_pos.le, mul_add, Real.exp_add,
      show -(1 / 2) * z = -(1 / 2 * z) by ring, show -(Real.exp (-z) / 2) = -(1 / 2) * Real.exp (-z) by ring]
    ring

end Verif.Law
