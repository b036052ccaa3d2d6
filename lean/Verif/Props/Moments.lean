import Verif.Lemmas.Moments
import Verif.Props.RoundTrip
import Mathlib.Analysis.Real.Pi.Bounds

/-!
# C08–C10: moment fits

`Matches f m s o'`: the fitted object is frozen, its canonical attributes are admissible, and its
textbook mean and variance are `m` and `s²`.  All statements hold for every previous state `o`.
-/

namespace Verif.Props
open Verif Verif.Param Verif.Spec

/-! ## C08 -/

/-- C08: Normal, Laplace, AsymmetricLaplace, Logistic, Gumbel, Moyal (and the symmetric Triangular)
match every requested mean and standard deviation exactly. -/
theorem location_scale_moments (f : MomFam)
    (hf : f ∈ [.normal, .laplace, .asymmetricLaplace, .logistic, .gumbel, .moyal, .triangular])
    (m s : ℝ) (hs : 0 < s) (o : Obj) : Gives (fitMoments f m s o) (Matches f m s) := by
  have hpi := Real.pi_pos
  have h2 : Real.sqrt 2 ^ 2 = 2 := Real.sq_sqrt (by norm_num)
  have h6 : Real.sqrt 6 ^ 2 = 6 := Real.sq_sqrt (by norm_num)
  have h2p : 0 < Real.sqrt 2 := Real.sqrt_pos.mpr (by norm_num)
  have h6p : 0 < Real.sqrt 6 := Real.sqrt_pos.mpr (by norm_num)
  simp only [List.mem_cons, List.not_mem_nil, or_false] at hf
  rcases hf with rfl | rfl | rfl | rfl | rfl | rfl | rfl
  · exact fit_matches _ (by simp) [m, s] _ _ _ rfl rfl hs trivial rfl rfl
  · refine fit_matches _ (by simp) (laplaceMoments m s) _ _ _ rfl rfl ?_ trivial rfl ?_
    · simp only [laplaceMoments, Admissible]; positivity
    · simp only [laplaceMoments, tVar]; rw [mul_pow, h2]; ring
  · refine fit_matches _ (by simp) (asymLaplaceMoments m s) _ _ _ rfl rfl ?_ trivial ?_ ?_
    · simp only [asymLaplaceMoments, Admissible]; exact ⟨one_pos, by positivity⟩
    · simp [asymLaplaceMoments, tMean]
    · simp only [asymLaplaceMoments, tVar]; rw [mul_pow, h2]; ring
  · refine fit_matches _ (by simp) (logisticMoments m s) _ _ _ rfl rfl ?_ trivial rfl ?_
    · simp only [logisticMoments, Admissible]; positivity
    · simp only [logisticMoments, tVar]; rw [Real.sq_sqrt (by positivity)]; field_simp
  · refine fit_matches _ (by simp) (gumbelMoments m s) _ _ _ rfl rfl ?_ trivial ?_ ?_
    · simp only [gumbelMoments, Admissible]; positivity
    · simp only [gumbelMoments, tMean]; ring
    · simp only [gumbelMoments, tVar]; rw [mul_pow, h6]; field_simp
  · refine fit_matches _ (by simp) (moyalMoments m s) _ _ _ rfl rfl ?_ trivial ?_ ?_
    · simp only [moyalMoments, Admissible]; positivity
    · simp only [moyalMoments, tMean]; ring
    · simp only [moyalMoments, tVar]; rw [mul_pow, h2]; field_simp
  · refine fit_matches _ (by simp) (triangularMoments m s) _ _ _ rfl rfl ?_ trivial ?_ ?_
    · simp only [triangularMoments, Admissible]
      have : 0 < Real.sqrt 6 * s := by positivity
      exact ⟨by linarith, by linarith, by linarith⟩
    · simp only [triangularMoments, tMean]; ring
    · simp only [triangularMoments, tVar]; ring_nf; rw [h6]; ring

example : MomFam.gumbel ∈ [MomFam.normal, .laplace, .asymmetricLaplace, .logistic, .gumbel, .moyal,
    .triangular] ∧ (0 : ℝ) < 2.5 := by constructor <;> norm_num

/-- The AsymmetricLaplace docstring gives `b` as a rate (variance `(1 + kappa⁴) / (b² kappa²)`),
while the moment fit is exact only for `b` as a scale: under the docstring's formula the fitted
variance is wrong for every `s² ≠ 2`. -/
theorem asym_laplace_docstring_variance (m s : ℝ) (hs : 0 < s) (o : Obj) :
    Gives (fitMoments .asymmetricLaplace m s o) fun o' => ∃ b, o'.attr "kappa" = some 1 ∧
      o'.attr "b" = some b ∧ ((1 + (1 : ℝ) ^ 4) / (b ^ 2 * 1 ^ 2) = s ^ 2 ↔ s ^ 2 = 2) := by
  refine fit_holds _ (by simp) (asymLaplaceMoments m s) _ _ _ rfl rfl _ fun o' ho => ?_
  obtain ⟨-, ho⟩ := ho
  simp only [canonNames, asymLaplaceMoments, List.map_cons, List.map_nil, List.cons.injEq] at ho
  refine ⟨_, ho.1, ho.2.2.1, ?_⟩
  have h2 : Real.sqrt 2 ^ 2 = 2 := Real.sq_sqrt (by norm_num)
  rw [mul_pow, h2]
  have hs2 : 0 < s ^ 2 := by positivity
  constructor
  · intro h
    field_simp at h
    have h4 : (s ^ 2) ^ 2 = 2 ^ 2 := by nlinarith
    exact (pow_left_inj₀ hs2.le (by norm_num) (by norm_num)).mp h4
  · intro h
    field_simp
    nlinarith

example : (0 : ℝ) < 1 ∧ (1 : ℝ) ^ 2 ≠ 2 := by norm_num

/-- C08 fails for Uniform: `1.73205` is not `√3`, so the fitted standard deviation is never the
requested one. -/
theorem uniform_moments_not_exact (m s : ℝ) (hs : 0 < s) (o : Obj) :
    Gives (fitMoments .uniform m s o) fun o' => ¬ Matches .uniform m s o' := by
  refine fit_holds _ (by simp) (uniformMoments m s) _ _ _ rfl rfl _ fun o' ho => ?_
  rintro ⟨vals, ⟨-, hv⟩, -, -, -, h⟩
  have hvals : vals = uniformMoments m s := by
    have := hv.symm.trans ho.2
    exact List.map_injective_iff.mpr (Option.some_injective _) this
  rw [hvals] at h
  simp only [uniformMoments, tVar] at h
  nlinarith [pow_pos hs 2]

/-- C08 for Uniform, what holds: the mean is exact and the standard deviation is short by a relative
error below `1e-6`.  Missing: exactness, which is false (`uniform_moments_not_exact`). -/
theorem uniform_moments_partial (m s : ℝ) (hs : 0 < s) (o : Obj) :
    Gives (fitMoments .uniform m s o) fun o' => ∃ vals, Holds .uniform vals o' ∧
      Admissible .uniform vals ∧ tMean .uniform vals = m ∧
      (s * (1 - 1e-6)) ^ 2 < tVar .uniform vals ∧ tVar .uniform vals < s ^ 2 := by
  refine fit_holds _ (by simp) (uniformMoments m s) _ _ _ rfl rfl _ fun o' ho => ?_
  refine ⟨_, ho, ?_, ?_, ?_, ?_⟩
  · simp only [uniformMoments, Admissible]; nlinarith
  · simp only [uniformMoments, tMean]; ring
  · simp only [uniformMoments, tVar]; nlinarith [pow_pos hs 2]
  · simp only [uniformMoments, tVar]; nlinarith [pow_pos hs 2]

example : (0 : ℝ) < 2 := by norm_num

/-! ## C09 -/

/-- C09: Gamma, InverseGamma, LogNormal, Wald and Pareto match every positive mean and standard
deviation exactly, with parameters for which the variance is finite. -/
theorem positive_moments (f : MomFam)
    (hf : f ∈ [.gamma, .inverseGamma, .logNormal, .wald, .pareto])
    (m s : ℝ) (hm : 0 < m) (hs : 0 < s) (o : Obj) : Gives (fitMoments f m s o) (Matches f m s) := by
  simp only [List.mem_cons, List.not_mem_nil, or_false] at hf
  rcases hf with rfl | rfl | rfl | rfl | rfl
  · obtain ⟨a, b, h1, ha, hb, h2, h3, -⟩ := gamma_from_mu_sigma m s hm hs
    exact fit_matches _ (by simp) [a, b] _ _ _ rfl (by simp [momentParams, h1]) ⟨ha, hb⟩ trivial h2 h3
  · obtain ⟨a, b, h1, ha, hb, h2, h3, -⟩ := invgamma_from_mu_sigma m s hm hs
    exact fit_matches _ (by simp) [a, b] _ _ _ rfl (by simp [momentParams, h1]) ⟨by linarith, hb⟩ ha
      h2 h3
  · have hq : 0 < s ^ 2 / m ^ 2 := by positivity
    have hsq : 0 < Real.sqrt (s ^ 2 + m ^ 2) := Real.sqrt_pos.mpr (by positivity)
    have hl : 0 < Real.log (s ^ 2 / m ^ 2 + 1) := Real.log_pos (by linarith)
    have hs' : Real.sqrt (Real.log (s ^ 2 / m ^ 2 + 1)) ^ 2 = Real.log (s ^ 2 / m ^ 2 + 1) :=
      Real.sq_sqrt hl.le
    have hr : 0 < m ^ 2 / Real.sqrt (s ^ 2 + m ^ 2) := by positivity
    have hE2 : Real.exp (2 * Real.log (m ^ 2 / Real.sqrt (s ^ 2 + m ^ 2))) =
        m ^ 4 / (s ^ 2 + m ^ 2) := by
      rw [two_mul, Real.exp_add, Real.exp_log hr]
      rw [div_mul_div_comm, Real.mul_self_sqrt (by positivity)]; ring
    have hvar : Real.exp (2 * Real.log (m ^ 2 / Real.sqrt (s ^ 2 + m ^ 2)) +
        Real.log (s ^ 2 / m ^ 2 + 1)) = m ^ 2 := by
      rw [Real.exp_add, Real.exp_log (by linarith), hE2]; field_simp
    refine fit_matches _ (by simp) [Real.log (m ^ 2 / Real.sqrt (s ^ 2 + m ^ 2)),
      Real.sqrt (Real.log (s ^ 2 / m ^ 2 + 1))] _ _ _ rfl ?_ ?_ trivial ?_ ?_
    · simp [momentParams, logNormalMoments, pyDiv_ok hsq.ne', pyDiv_ok (pow_pos hm 2).ne']
    · exact Real.sqrt_pos.mpr hl
    · simp only [tMean, hs']
      have h := hvar
      have : Real.exp (Real.log (m ^ 2 / Real.sqrt (s ^ 2 + m ^ 2)) +
          Real.log (s ^ 2 / m ^ 2 + 1) / 2) ^ 2 = m ^ 2 := by
        rw [← Real.exp_nat_mul]; refine Eq.trans (congrArg Real.exp ?_) h; push_cast; ring
      exact (pow_left_inj₀ (Real.exp_pos _).le hm.le (by norm_num)).mp this
    · simp only [tVar, hs', hvar, Real.exp_log (show 0 < s ^ 2 / m ^ 2 + 1 by linarith)]
      field_simp; ring
  · refine fit_matches _ (by simp) [m, m ^ 3 / s ^ 2] _ _ _ rfl ?_ ⟨hm, by positivity⟩ trivial rfl ?_
    · simp [momentParams, waldMoments, pyDiv_ok (pow_pos hs 2).ne']
    · simp only [tVar]; field_simp
  · have hr : 0 < Real.sqrt (1 + (m / s) ^ 2) := Real.sqrt_pos.mpr (by positivity)
    have hsq : Real.sqrt (1 + (m / s) ^ 2) ^ 2 = 1 + (m / s) ^ 2 := Real.sq_sqrt (by positivity)
    set r := Real.sqrt (1 + (m / s) ^ 2) with hrdef
    have h1 : 1 < r := by
      have : 0 < (m / s) ^ 2 := by positivity
      nlinarith
    refine fit_matches _ (by simp) [1 + r, (1 + r - 1) * m / (1 + r)] _ _ _ rfl ?_
      ⟨by linarith, ?_⟩ (by simp only [HasVar]; linarith) ?_ ?_
    · simp [momentParams, paretoMoments, pyDiv_ok hs.ne', pyDiv_ok (show 1 + r ≠ 0 by linarith),
        ← hrdef]
    · have : 0 < 1 + r - 1 := by linarith
      positivity
    · simp only [tMean]
      have : 1 + r - 1 ≠ 0 := by linarith
      have h' : 1 + r ≠ 0 := by linarith
      field_simp
    · simp only [tVar]
      have e1 : 1 + r - 1 = r := by ring
      have e2 : 1 + r - 2 = r - 1 := by ring
      have h' : 1 + r ≠ 0 := by linarith
      have h'' : r - 1 ≠ 0 := by linarith
      rw [e1, e2]
      have e3 : (1 + r) * (r - 1) = (m / s) ^ 2 := by ring_nf; rw [hsq]; ring
      have e4 : (r * m / (1 + r)) ^ 2 * (1 + r) / (r ^ 2 * (r - 1)) = m ^ 2 / ((1 + r) * (r - 1)) := by
        field_simp
      rw [e4, e3]; field_simp

example : MomFam.pareto ∈ [MomFam.gamma, .inverseGamma, .logNormal, .wald, .pareto] ∧ (0 : ℝ) < 3 ∧
    (0 : ℝ) < 0.5 := by refine ⟨?_, ?_, ?_⟩ <;> norm_num

/-- C09: the one-parameter families match the moment they are documented to use: Exponential,
ChiSquared, Poisson the mean, HalfNormal the standard deviation. -/
theorem one_parameter_moments (m s : ℝ) (hm : 0 < m) (hs : 0 < s) (o : Obj) :
    (∀ f ∈ [MomFam.exponential, .chiSquared, .poisson], Gives (fitMoments f m s o) fun o' =>
      ∃ vals, Holds f vals o' ∧ Admissible f vals ∧ tMean f vals = m) ∧
    (Gives (fitMoments .halfNormal m s o) fun o' =>
      ∃ vals, Holds .halfNormal vals o' ∧ Admissible .halfNormal vals ∧
        tVar .halfNormal vals = s ^ 2) := by
  constructor
  · intro f hf
    simp only [List.mem_cons, List.not_mem_nil, or_false] at hf
    rcases hf with rfl | rfl | rfl
    · refine fit_holds _ (by simp) [1 / m] _ _ _ rfl (by simp [momentParams, pyDiv_ok hm.ne']) _
        fun o' ho => ⟨_, ho, ?_, ?_⟩
      · simp only [Admissible]; positivity
      · simp only [tMean]; field_simp
    · exact fit_holds _ (by simp) [m] _ _ _ rfl rfl _ fun o' ho => ⟨_, ho, hm, rfl⟩
    · exact fit_holds _ (by simp) [m] _ _ _ rfl rfl _ fun o' ho => ⟨_, ho, hm, rfl⟩
  · have hpi := Real.pi_gt_three
    have h0 : 0 < 1 - 2 / Real.pi := by
      rw [sub_pos, div_lt_one Real.pi_pos]; linarith
    refine fit_holds _ (by simp) (halfNormalMoments s) _ _ _ rfl rfl _
      fun o' ho => ⟨_, ho, ?_, ?_⟩
    · simp only [halfNormalMoments, Admissible]; positivity
    · simp only [halfNormalMoments, tVar]
      rw [div_pow, Real.sq_sqrt h0.le, div_mul_cancel₀ _ h0.ne']

example : (0 : ℝ) < 3 ∧ (0 : ℝ) < 0.5 := by norm_num

/-! ## C10 -/

/-- C10: after a moment fit the Beta parameters are always admissible (at least 1/2 each), and when
the shape parameters that match exactly are both at least 1/2 the fit is exact. -/
theorem beta_moments_partial (m s : ℝ) (hs : 0 < s) (o : Obj) :
    (Gives (fitMoments .beta m s o) fun o' => ∃ vals, Holds .beta vals o' ∧
      Admissible .beta vals) ∧
    (∀ a b, 0.5 ≤ a → 0.5 ≤ b → betaMean a b = m → betaVar a b = s ^ 2 →
      Gives (fitMoments .beta m s o) (Matches .beta m s)) := by
  constructor
  · refine fit_holds _ (by simp) [max 0.5 (m * (m * (1 - m) / s ^ 2 - 1)),
      max 0.5 ((1 - m) * (m * (1 - m) / s ^ 2 - 1))] _ _ _ rfl ?_ _ fun o' ho => ⟨_, ho, ?_⟩
    · simp [momentParams, betaMoments, betaFromMuSigma_ok hs.ne']
    · exact ⟨lt_of_lt_of_le (by norm_num) (le_max_left _ _),
        lt_of_lt_of_le (by norm_num) (le_max_left _ _)⟩
  · intro a b ha hb hm hv
    have ha0 : 0 < a := by linarith
    have hb0 : 0 < b := by linarith
    obtain ⟨h1, h2, h3, -, h5, -⟩ := beta_to_from a b ha0 hb0
    have hs' : (betaToMuSigma a b).2 = s :=
      (pow_left_inj₀ h2.le hs.le (by norm_num)).mp (h3.trans hv)
    rw [h1, hm, hs'] at h5
    refine fit_matches _ (by simp) [a, b] _ _ _ rfl ?_ ⟨ha0, hb0⟩ trivial hm hv
    simp [momentParams, betaMoments, h5, ha, hb]

example : (0.5 : ℝ) ≤ 2 ∧ (0.5 : ℝ) ≤ 5 ∧ betaMean 2 5 = 2 / 7 := by
  refine ⟨by norm_num, by norm_num, by norm_num [betaMean]⟩

/-- C10, missing part of `beta_moments_partial`: attainable moments whose exact shape parameters are
below 1/2 are not matched (here mean 1/2, standard deviation 9/20, attained by Beta(19/162, 19/162)). -/
theorem beta_moments_clamped (o : Obj) :
    (∃ a b : ℝ, 0 < a ∧ 0 < b ∧ betaMean a b = 1 / 2 ∧ betaVar a b = (9 / 20) ^ 2) ∧
    Gives (fitMoments .beta (1 / 2) (9 / 20) o) fun o' => ¬ Matches .beta (1 / 2) (9 / 20) o' := by
  constructor
  · exact ⟨19 / 162, 19 / 162, by norm_num, by norm_num, by norm_num [betaMean], by
      norm_num [betaVar]⟩
  · refine fit_holds _ (by simp) [0.5, 0.5] _ _ _ rfl ?_ _ fun o' ho => ?_
    · rw [momentParams, betaMoments, betaFromMuSigma_ok (by norm_num)]
      norm_num
    · rintro ⟨vals, ⟨-, hv⟩, -, -, -, h⟩
      have hvals : vals = [0.5, 0.5] :=
        List.map_injective_iff.mpr (Option.some_injective _) (hv.symm.trans ho.2)
      rw [hvals] at h
      norm_num [tVar, betaVar] at h

/-- C10: BetaScaled keeps its bounds, gets admissible shape parameters (at least 1/2), and is exact
when the matching shape parameters are at least 1/2. -/
theorem beta_scaled_moments_partial (m s l u : ℝ) (hs : 0 < s) (hlu : l < u) (o : Obj)
    (ol : o.attr "lower" = some l) (ou : o.attr "upper" = some u) :
    (Gives (fitMoments .betaScaled m s o) fun o' => ∃ a b, Holds .betaScaled [a, b, l, u] o' ∧
      Admissible .betaScaled [a, b, l, u]) ∧
    (∀ a b, 0.5 ≤ a → 0.5 ≤ b → tMean .betaScaled [a, b, l, u] = m →
      tVar .betaScaled [a, b, l, u] = s ^ 2 →
      Gives (fitMoments .betaScaled m s o) (Matches .betaScaled m s)) := by
  have hd : 0 < u - l := by linarith
  have hsd : (s / (u - l)) ^ 2 ≠ 0 := by positivity
  have hp : momentParams .betaScaled o m s = .ok
      [max 0.5 (((m - l) / (u - l) * (1 - (m - l) / (u - l)) / (s / (u - l)) ^ 2 - 1) *
        ((m - l) / (u - l))),
       max 0.5 (((m - l) / (u - l) * (1 - (m - l) / (u - l)) / (s / (u - l)) ^ 2 - 1) *
        (1 - (m - l) / (u - l))), l, u] := by
    simp only [momentParams, ol, ou, betaScaledMoments, pyDiv_ok hd.ne', Except.ok_bind',
      pyDiv_ok hsd, Except.pure_eq]
  constructor
  · refine fit_holds _ (by simp) _ _ _ _ rfl hp _ fun o' ho => ⟨_, _, ho, ?_, ?_, hlu⟩
    · exact lt_of_lt_of_le (by norm_num) (le_max_left _ _)
    · exact lt_of_lt_of_le (by norm_num) (le_max_left _ _)
  · intro a b ha hb hm hv
    have ha0 : 0 < a := by linarith
    have hb0 : 0 < b := by linarith
    simp only [tMean, tVar] at hm hv
    have hm' : (m - l) / (u - l) = betaMean a b := by
      rw [← hm]; field_simp; ring
    have hv' : (s / (u - l)) ^ 2 = betaVar a b := by
      rw [div_pow, ← hv]; field_simp
    obtain ⟨h1, h2, h3, h4, -, h6, -⟩ := beta_to_from a b ha0 hb0
    rw [h3, h1] at h4
    rw [hm', hv', h4] at hp
    have e1 : (a + b) * betaMean a b = a := by unfold betaMean; field_simp
    have e2 : (a + b) * (1 - betaMean a b) = b := by unfold betaMean; field_simp; ring
    rw [e1, e2, max_eq_right ha, max_eq_right hb] at hp
    exact fit_matches _ (by simp) [a, b, l, u] _ _ _ rfl hp ⟨ha0, hb0, hlu⟩ trivial hm hv

example : (-1 : ℝ) < 3 ∧ (0 : ℝ) < 0.7 ∧ ((blank.set "lower" (some (-1))).set "upper" (some 3)).attr
    "lower" = some (-1) := by
  refine ⟨by norm_num, by norm_num, by simp [Obj.set]⟩

/-- C10: DiscreteUniform ends up with integer bounds `lower ≤ upper` whose interval contains the
exact real solution and exceeds it by less than one unit on each side; so when the exact solution is
integral the fit is exact. -/
theorem discrete_uniform_moments (m s : ℝ) (o : Obj) :
    Gives (fitMoments .discreteUniform m s o) fun o' => ∃ (l u : ℤ) (x y : ℝ),
      Holds .discreteUniform [(l : ℝ), (u : ℝ)] o' ∧ Admissible .discreteUniform [(l : ℝ), (u : ℝ)] ∧
      tMean .discreteUniform [x, y] = m ∧ tVar .discreteUniform [x, y] = s ^ 2 ∧
      (l : ℝ) ≤ x ∧ x < l + 1 ∧ y ≤ u ∧ (u : ℝ) < y + 1 ∧
      ((∃ i j : ℤ, x = i ∧ y = j) → Matches .discreteUniform m s o') := by
  set x := (discreteUniformMoments m s)[0]! with hx
  set y := (discreteUniformMoments m s)[1]! with hy
  have hsq : Real.sqrt (12 * s ^ 2 + 1) ^ 2 = 12 * s ^ 2 + 1 := Real.sq_sqrt (by positivity)
  have hspr : 1 ≤ Real.sqrt (12 * s ^ 2 + 1) := by
    rw [Real.one_le_sqrt]; nlinarith [sq_nonneg s]
  have hxe : x = 0.5 * (2 * m - Real.sqrt (12 * s ^ 2 + 1) + 1) := by
    simp [hx, discreteUniformMoments]
  have hye : y = 0.5 * (2 * m + Real.sqrt (12 * s ^ 2 + 1) - 1) := by
    simp [hy, discreteUniformMoments]
  have hxy : x ≤ y := by rw [hxe, hye]; linarith
  have hmean : tMean .discreteUniform [x, y] = m := by
    simp only [tMean]; rw [hxe, hye]; ring
  have hvar : tVar .discreteUniform [x, y] = s ^ 2 := by
    simp only [tVar]; rw [hxe, hye]; ring_nf; ring_nf at hsq; rw [hsq]; ring
  obtain ⟨o', h1, h2⟩ := update_holds .discreteUniform [x, y] o rfl
  have hp : momentParams .discreteUniform o m s = .ok [x, y] := by
    simp [momentParams, hx, hy, discreteUniformMoments]
  have hadm : Admissible .discreteUniform [(⌊x⌋ : ℝ), (⌈y⌉ : ℝ)] := by
    refine ⟨⟨_, _, rfl, rfl⟩, ?_⟩
    exact (Int.floor_le x).trans (hxy.trans (Int.le_ceil y))
  refine ⟨o', by simp [fitMoments, hp, h1], ⌊x⌋, ⌈y⌉, x, y, h2, hadm, hmean, hvar, Int.floor_le x,
    Int.lt_floor_add_one x, Int.le_ceil y, Int.ceil_lt_add_one y, ?_⟩
  rintro ⟨i, j, hi, hj⟩
  have e1 : (⌊x⌋ : ℝ) = x := by rw [hi]; simp
  have e2 : (⌈y⌉ : ℝ) = y := by rw [hj]; simp
  refine ⟨[x, y], ?_, ?_, trivial, hmean, hvar⟩
  · simpa [e1, e2] using h2
  · rw [e1, e2] at hadm; exact hadm

/-- C10: Bernoulli and Geometric stay admissible for every attainable mean and match it. -/
theorem bernoulli_geometric_moments (m s : ℝ) (o : Obj) :
    (0 ≤ m → m ≤ 1 → Gives (fitMoments .bernoulli m s o) fun o' => ∃ vals,
      Holds .bernoulli vals o' ∧ Admissible .bernoulli vals ∧ tMean .bernoulli vals = m ∧
      (s ^ 2 = m * (1 - m) → Matches .bernoulli m s o')) ∧
    (1 ≤ m → Gives (fitMoments .geometric m s o) fun o' => ∃ vals,
      Holds .geometric vals o' ∧ Admissible .geometric vals ∧ tMean .geometric vals = m) := by
  constructor
  · intro h0 h1
    exact fit_holds _ (by simp) [m] _ _ _ rfl rfl _ fun o' ho =>
      ⟨_, ho, ⟨h0, h1⟩, rfl, fun hv => ⟨_, ho, ⟨h0, h1⟩, trivial, rfl, hv.symm⟩⟩
  · intro h1
    have hm : 0 < m := by linarith
    refine fit_holds _ (by simp) [1 / m] _ _ _ rfl (by simp [momentParams, pyDiv_ok hm.ne']) _
      fun o' ho => ⟨_, ho, ⟨by positivity, ?_⟩, ?_⟩
    · rw [div_le_one hm]; exact h1
    · simp only [tMean]; field_simp

example : (0 : ℝ) ≤ 0.3 ∧ (0.3 : ℝ) ≤ 1 ∧ (1 : ℝ) ≤ 4 := by norm_num

/-- C10: outside the attainable means the code leaves the parameter space without an error:
Bernoulli for a mean above one, Geometric for a mean below one. -/
theorem bernoulli_geometric_inadmissible (m s : ℝ) (o : Obj) :
    (1 < m → Gives (fitMoments .bernoulli m s o) fun o' => ∃ p, o'.attr "p" = some p ∧
      o'.frozen = true ∧ 1 < p) ∧
    (0 < m → m < 1 → Gives (fitMoments .geometric m s o) fun o' => ∃ p, o'.attr "p" = some p ∧
      o'.frozen = true ∧ 1 < p) := by
  constructor
  · intro h
    refine fit_holds _ (by simp) [m] _ _ _ rfl rfl _ fun o' ho => ⟨m, ?_, ho.1, h⟩
    simpa [canonNames] using ho.2
  · intro h0 h1
    refine fit_holds _ (by simp) [1 / m] _ _ _ rfl (by simp [momentParams, pyDiv_ok h0.ne']) _
      fun o' ho => ⟨1 / m, ?_, ho.1, ?_⟩
    · simpa [canonNames] using ho.2
    · rw [lt_div_iff₀ h0]; linarith

example : (1 : ℝ) < 1.5 ∧ (0 : ℝ) < 0.5 ∧ (0.5 : ℝ) < 1 := by norm_num

/-- C10: StudentT is always admissible with finite variance and exact mean; it matches the standard
deviation exactly when the object already had `nu > 2`. -/
theorem studentt_moments_partial (m s : ℝ) (hs : 0 < s) (o : Obj) :
    (Gives (fitMoments .studentT m s o) fun o' => ∃ vals, Holds .studentT vals o' ∧
      Admissible .studentT vals ∧ HasVar .studentT vals ∧ tMean .studentT vals = m ∧
      s ^ 2 ≤ tVar .studentT vals) ∧
    (∀ nu, o.attr "nu" = some nu → 2 < nu →
      Gives (fitMoments .studentT m s o) fun o' => Matches .studentT m s o' ∧
        o'.attr "nu" = some nu) := by
  have key : ∀ nu, o.attr "nu" = some nu → 2 < nu →
      Gives (fitMoments .studentT m s o) fun o' => Matches .studentT m s o' ∧
        o'.attr "nu" = some nu := by
    intro nu hnu h2
    have h2' : 0 < nu - 2 := by linarith
    have hnu0 : 0 < nu := by linarith
    have hq : 0 < nu / (nu - 2) := by positivity
    refine fit_holds _ (by simp) [nu, m, s / Real.sqrt (nu / (nu - 2))] _ _ _ rfl ?_ _
      fun o' ho => ⟨⟨_, ho, ⟨hnu0, by positivity⟩, h2, rfl, ?_⟩, ?_⟩
    · simp [momentParams, studentTMoments, hnu, not_le.mpr h2]
    · simp only [tVar]; rw [div_pow, Real.sq_sqrt hq.le]; field_simp
    · have := ho.2
      simp only [canonNames, List.map_cons, List.cons.injEq] at this
      exact this.1
  refine ⟨?_, key⟩
  cases hnu : o.attr "nu" with
  | none =>
    refine fit_holds _ (by simp) [100, m, s] _ _ _ rfl (by simp [momentParams, studentTMoments, hnu])
      _ fun o' ho => ⟨_, ho, ⟨by norm_num, hs⟩, by simp only [HasVar]; norm_num, rfl, ?_⟩
    simp only [tVar]; nlinarith [pow_pos hs 2]
  | some nu =>
    by_cases h2 : nu ≤ 2
    · refine fit_holds _ (by simp) [2.1, m, s] _ _ _ rfl
        (by simp [momentParams, studentTMoments, hnu, h2]) _
        fun o' ho => ⟨_, ho, ⟨by norm_num, hs⟩, by simp only [HasVar]; norm_num, rfl, ?_⟩
      simp only [tVar]
      rw [le_div_iff₀ (by norm_num)]
      nlinarith [pow_pos hs 2]
    · obtain ⟨o', h1, ⟨vals, hv⟩, -⟩ := key nu hnu (not_le.mp h2)
      exact ⟨o', h1, vals, hv.1, hv.2.1, hv.2.2.1, hv.2.2.2.1, hv.2.2.2.2.ge⟩

example : (0 : ℝ) < 2 ∧ (blank.set "nu" (some 5)).attr "nu" = some 5 ∧ (2 : ℝ) < 5 := by
  refine ⟨by norm_num, by simp [Obj.set], by norm_num⟩

/-- C10, missing part of `studentt_moments_partial`: a StudentT without `nu` (or with `nu ≤ 2`) never
gets the requested standard deviation. -/
theorem studentt_moments_not_exact (m s : ℝ) (hs : 0 < s) (o : Obj)
    (h : o.attr "nu" = none ∨ ∃ nu, o.attr "nu" = some nu ∧ nu ≤ 2) :
    Gives (fitMoments .studentT m s o) fun o' => ¬ Matches .studentT m s o' := by
  have fin : ∀ n : ℝ, 2 < n → ∀ o', Holds .studentT [n, m, s] o' → ¬ Matches .studentT m s o' := by
    rintro n hn o' ho ⟨vals, ⟨-, hv⟩, -, -, -, hvar⟩
    have hvals : vals = [n, m, s] :=
      List.map_injective_iff.mpr (Option.some_injective _) (hv.symm.trans ho.2)
    rw [hvals] at hvar
    simp only [tVar] at hvar
    rw [div_eq_iff (by linarith)] at hvar
    nlinarith [pow_pos hs 2]
  rcases h with h | ⟨nu, h, h2⟩
  · exact fit_holds _ (by simp) [100, m, s] _ _ _ rfl (by simp [momentParams, studentTMoments, h])
      _ (fin _ (by norm_num))
  · exact fit_holds _ (by simp) [2.1, m, s] _ _ _ rfl
      (by simp [momentParams, studentTMoments, h, h2]) _ (fin _ (by norm_num))

example : (0 : ℝ) < 2 ∧ blank.attr "nu" = none := ⟨by norm_num, rfl⟩

end Verif.Props
