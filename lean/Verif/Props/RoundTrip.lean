import Verif.Spec.Param
import Verif.Lemmas.Param2

/-!
# C01–C04: alternative parametrisations

The conversions used by the constructors (`*From*`) and by `_update` (`*To*`) against the textbook
moments in `Spec/Param.lean`.
-/

namespace Verif.Props
open Verif Verif.Param Verif.Spec

/-! ## C01 Beta -/

/-- C01: a Beta built from `(mu, sigma)` has positive `alpha`, `beta`, textbook mean `mu` and variance
`sigma²`, and reports `(mu, sigma)` back. -/
theorem beta_from_mu_sigma (mu sigma : ℝ) (hm0 : 0 < mu) (hm1 : mu < 1) (hs : 0 < sigma)
    (hv : sigma ^ 2 < mu * (1 - mu)) :
    ∃ a b, betaFromMuSigma mu sigma = .ok (a, b) ∧ 0 < a ∧ 0 < b ∧
      betaMean a b = mu ∧ betaVar a b = sigma ^ 2 ∧ betaToMuSigma a b = (mu, sigma) := by
  refine ⟨_, _, betaFromMuSigma_ok hs.ne', ?_⟩
  have hs2 : 0 < sigma ^ 2 := by positivity
  set nu := mu * (1 - mu) / sigma ^ 2 - 1 with hnu
  have hnupos : 0 < nu := by
    rw [hnu, sub_pos, lt_div_iff₀ hs2]; linarith
  have h1m : 0 < 1 - mu := by linarith
  have hsum : mu * nu + (1 - mu) * nu = nu := by ring
  have hnu1 : nu + 1 = mu * (1 - mu) / sigma ^ 2 := by rw [hnu]; ring
  have hmean : mu * nu / (mu * nu + (1 - mu) * nu) = mu := by
    rw [hsum]; field_simp
  have hvar : mu * nu * ((1 - mu) * nu) / (nu ^ 2 * (nu + 1)) = sigma ^ 2 := by
    rw [hnu1]; field_simp
  refine ⟨by positivity, by positivity, hmean, ?_, ?_⟩
  · unfold betaVar; rw [hsum]; exact hvar
  · unfold betaToMuSigma
    simp only [hsum]
    refine Prod.ext ?_ ?_
    · simp only; field_simp
    · simp only
      rw [div_div, ← Real.sqrt_sq hs.le, ← hvar, Real.sqrt_div' _ (by positivity),
        Real.sqrt_mul (sq_nonneg nu), Real.sqrt_sq hnupos.le]

example : (0 : ℝ) < 0.3 ∧ (0.3 : ℝ) < 1 ∧ (0 : ℝ) < 0.2 ∧ (0.2 : ℝ) ^ 2 < 0.3 * (1 - 0.3) := by
  norm_num

/-- C01: outside the attainable region the constructor silently produces non-positive shape
parameters (no exception is raised). -/
theorem beta_from_mu_sigma_unattainable (mu sigma : ℝ) (hm0 : 0 < mu) (hm1 : mu < 1)
    (hs : 0 < sigma) (hv : mu * (1 - mu) ≤ sigma ^ 2) :
    ∃ a b, betaFromMuSigma mu sigma = .ok (a, b) ∧ a ≤ 0 ∧ b ≤ 0 := by
  refine ⟨_, _, betaFromMuSigma_ok hs.ne', ?_, ?_⟩
  · have : mu * (1 - mu) / sigma ^ 2 ≤ 1 := by rw [div_le_one (by positivity)]; exact hv
    exact mul_nonpos_of_nonneg_of_nonpos hm0.le (by linarith)
  · have : mu * (1 - mu) / sigma ^ 2 ≤ 1 := by rw [div_le_one (by positivity)]; exact hv
    exact mul_nonpos_of_nonneg_of_nonpos (by linarith) (by linarith)

example : (0.5 : ℝ) * (1 - 0.5) ≤ (0.6 : ℝ) ^ 2 := by norm_num

/-- C01: a Beta built from `(mu, nu)` has positive shape parameters, mean `mu`, sample size `nu`, and
the `nu` recomputed by `_update` from mean and standard deviation is the requested one. -/
theorem beta_from_mu_nu (mu nu : ℝ) (hm0 : 0 < mu) (hm1 : mu < 1) (hn : 0 < nu) :
    let ab := betaFromMuNu mu nu
    0 < ab.1 ∧ 0 < ab.2 ∧ betaMean ab.1 ab.2 = mu ∧ ab.1 + ab.2 = nu ∧
      (betaToMuSigma ab.1 ab.2).1 = mu ∧
      (let ms := betaToMuSigma ab.1 ab.2; ms.1 * (1 - ms.1) / ms.2 ^ 2 - 1 = nu) := by
  have h1m : 0 < 1 - mu := by linarith
  have hsum : mu * nu + (1 - mu) * nu = nu := by ring
  have hmean : mu * nu / (mu * nu + (1 - mu) * nu) = mu := by
    rw [hsum]; field_simp
  refine ⟨by simp only [betaFromMuNu]; positivity, by simp only [betaFromMuNu]; positivity, hmean,
    hsum, hmean, ?_⟩
  simp only [betaFromMuNu, betaToMuSigma, hsum]
  rw [div_pow, div_pow, Real.sq_sqrt (by positivity), Real.sq_sqrt (by positivity)]
  field_simp
  ring

example : (0 : ℝ) < 0.3 ∧ (0.3 : ℝ) < 1 ∧ (0 : ℝ) < 4 := by norm_num

/-- C01: what a Beta built from `(alpha, beta)` reports as `mu`, `sigma`, `nu` is its textbook mean,
standard deviation and `alpha + beta`, and converting back returns `(alpha, beta)`. -/
theorem beta_to_from (a b : ℝ) (ha : 0 < a) (hb : 0 < b) :
    let ms := betaToMuSigma a b
    ms.1 = betaMean a b ∧ 0 < ms.2 ∧ ms.2 ^ 2 = betaVar a b ∧
      ms.1 * (1 - ms.1) / ms.2 ^ 2 - 1 = a + b ∧
      betaFromMuSigma ms.1 ms.2 = .ok (a, b) ∧ betaFromMuNu ms.1 (a + b) = (a, b) ∧
      ms.2 ^ 2 < ms.1 * (1 - ms.1) ∧ 0 < ms.1 ∧ ms.1 < 1 := by
  have hs : 0 < a + b := by linarith
  have hsig : 0 < (betaToMuSigma a b).2 := by
    simp only [betaToMuSigma]; positivity
  have hsq : (betaToMuSigma a b).2 ^ 2 = betaVar a b := by
    simp only [betaToMuSigma, betaVar]
    rw [div_pow, div_pow, Real.sq_sqrt (by positivity), Real.sq_sqrt (by positivity), div_div]
  have hnu : (betaToMuSigma a b).1 * (1 - (betaToMuSigma a b).1) / (betaToMuSigma a b).2 ^ 2 - 1
      = a + b := by
    rw [hsq]; simp only [betaToMuSigma, betaVar]
    field_simp
    ring
  refine ⟨rfl, hsig, hsq, hnu, ?_, ?_, ?_, ?_, ?_⟩
  · rw [betaFromMuSigma_ok hsig.ne', hnu]
    simp only [betaToMuSigma]
    congr 2
    · field_simp
    · field_simp; ring
  · simp only [betaToMuSigma, betaFromMuNu]
    refine Prod.ext ?_ ?_
    · simp only; field_simp
    · simp only; field_simp; ring
  · rw [hsq]; simp only [betaToMuSigma, betaVar]
    have : a / (a + b) * (1 - a / (a + b)) = a * b / (a + b) ^ 2 := by
      field_simp; ring
    rw [this]
    apply div_lt_div_of_pos_left (by positivity) (by positivity)
    nlinarith [sq_nonneg (a + b), mul_pos (pow_pos hs 2) hs]
  · simp only [betaToMuSigma]; positivity
  · simp only [betaToMuSigma]; rw [div_lt_one hs]; linarith

example : (0 : ℝ) < 2 ∧ (0 : ℝ) < 5 := by norm_num

/-! ## C02 Gamma and InverseGamma -/

/-- C02: Gamma from `(mu, sigma)`. -/
theorem gamma_from_mu_sigma (mu sigma : ℝ) (hm : 0 < mu) (hs : 0 < sigma) :
    ∃ a b, gammaFromMuSigma mu sigma = .ok (a, b) ∧ 0 < a ∧ 0 < b ∧
      gammaMean a b = mu ∧ gammaVar a b = sigma ^ 2 ∧ gammaToMuSigma a b = (mu, sigma) := by
  refine ⟨_, _, gammaFromMuSigma_ok hs.ne', by positivity, by positivity, ?_, ?_, ?_⟩
  · unfold gammaMean; field_simp
  · unfold gammaVar; field_simp
  · unfold gammaToMuSigma
    refine Prod.ext ?_ ?_
    · simp only; field_simp
    · simp only
      rw [← div_pow, Real.sqrt_sq (by positivity)]; field_simp

example : (0 : ℝ) < 3 ∧ (0 : ℝ) < 0.5 := by norm_num

/-- C02: Gamma from `(alpha, beta)`, out and back. -/
theorem gamma_to_from (a b : ℝ) (ha : 0 < a) (hb : 0 < b) :
    let ms := gammaToMuSigma a b
    ms.1 = gammaMean a b ∧ 0 < ms.2 ∧ ms.2 ^ 2 = gammaVar a b ∧ 0 < ms.1 ∧
      gammaFromMuSigma ms.1 ms.2 = .ok (a, b) := by
  have hs : 0 < (gammaToMuSigma a b).2 := by simp only [gammaToMuSigma]; positivity
  have hsq : (gammaToMuSigma a b).2 ^ 2 = gammaVar a b := by
    simp only [gammaToMuSigma, gammaVar]; rw [div_pow, Real.sq_sqrt ha.le]
  refine ⟨rfl, hs, hsq, by simp only [gammaToMuSigma]; positivity, ?_⟩
  rw [gammaFromMuSigma_ok hs.ne', hsq]
  simp only [gammaToMuSigma, gammaVar]
  congr 2 <;> field_simp

example : (0 : ℝ) < 3 ∧ (0 : ℝ) < 0.5 := by norm_num

/-- C02: InverseGamma from `(mu, sigma)`. -/
theorem invgamma_from_mu_sigma (mu sigma : ℝ) (hm : 0 < mu) (hs : 0 < sigma) :
    ∃ a b, invGammaFromMuSigma mu sigma = .ok (a, b) ∧ 2 < a ∧ 0 < b ∧
      invGammaMean a b = mu ∧ invGammaVar a b = sigma ^ 2 ∧
      invGammaToMu a b = some mu ∧ invGammaToSigma a b = some sigma := by
  have hq : 0 < mu ^ 2 / sigma ^ 2 := by positivity
  have h1 : mu ^ 2 / sigma ^ 2 + 2 - 1 = mu ^ 2 / sigma ^ 2 + 1 := by ring
  have h2 : mu ^ 2 / sigma ^ 2 + 2 - 2 = mu ^ 2 / sigma ^ 2 := by ring
  have hb : mu ^ 3 / sigma ^ 2 + mu = mu * (mu ^ 2 / sigma ^ 2 + 1) := by ring
  have hmean : (mu ^ 3 / sigma ^ 2 + mu) / (mu ^ 2 / sigma ^ 2 + 1) = mu := by
    rw [hb]; field_simp
  refine ⟨_, _, invGammaFromMuSigma_ok hs.ne', by linarith, by positivity, ?_, ?_, ?_, ?_⟩
  · unfold invGammaMean; rw [h1, hmean]
  · unfold invGammaVar; rw [h1, h2, hb]; field_simp
  · unfold invGammaToMu; rw [if_pos (by linarith), h1, hmean]
  · unfold invGammaToSigma; rw [if_pos (by linarith), h1, h2, hb, ← div_pow,
      Real.sqrt_sq (by positivity)]
    congr 1; field_simp

example : (0 : ℝ) < 3 ∧ (0 : ℝ) < 0.5 := by norm_num

/-- C02: InverseGamma from `(alpha, beta)` with finite variance, out and back. -/
theorem invgamma_to_from (a b : ℝ) (ha : 2 < a) (hb : 0 < b) :
    ∃ mu sigma, invGammaToMu a b = some mu ∧ invGammaToSigma a b = some sigma ∧
      0 < mu ∧ 0 < sigma ∧ mu = invGammaMean a b ∧ sigma ^ 2 = invGammaVar a b ∧
      invGammaFromMuSigma mu sigma = .ok (a, b) := by
  have h1 : 0 < a - 1 := by linarith
  have h2 : 0 < a - 2 := by linarith
  have hsq : (b / ((a - 1) * Real.sqrt (a - 2))) ^ 2 = invGammaVar a b := by
    unfold invGammaVar; rw [div_pow, mul_pow, Real.sq_sqrt h2.le]
  have hspos : 0 < b / ((a - 1) * Real.sqrt (a - 2)) := by positivity
  refine ⟨b / (a - 1), b / ((a - 1) * Real.sqrt (a - 2)), ?_, ?_, by positivity, hspos, rfl, hsq, ?_⟩
  · unfold invGammaToMu; rw [if_pos (by linarith)]
  · unfold invGammaToSigma; rw [if_pos (by linarith)]
  · rw [invGammaFromMuSigma_ok hspos.ne', hsq]; unfold invGammaVar
    congr 2
    · field_simp; ring
    · field_simp; ring

example : (2 : ℝ) < 3 ∧ (0 : ℝ) < 0.5 := by norm_num

/-- C02: below the existence thresholds the InverseGamma reports no mean / standard deviation
(`nan`), never a wrong number. -/
theorem invgamma_undefined (a b : ℝ) :
    (a ≤ 1 → invGammaToMu a b = none) ∧ (a ≤ 2 → invGammaToSigma a b = none) := by
  constructor
  · intro h; unfold invGammaToMu; rw [if_neg (by linarith)]
  · intro h; unfold invGammaToSigma; rw [if_neg (by linarith)]

example : (1.5 : ℝ) ≤ 2 ∧ (0.5 : ℝ) ≤ 1 := by norm_num

/-! ## C03 -/

/-- C03: NegativeBinomial `(p, n)`: the mean is the textbook mean of the failure-counting law, the
variance of the `(mu, alpha)` form `mu + mu²/alpha` is its variance, and both conversions invert each
other. -/
theorem nb_from_to (n p : ℝ) (hn : 0 < n) (hp0 : 0 < p) (hp1 : p < 1) :
    ∃ mu alpha, nbFromNP n p = .ok (mu, alpha) ∧ 0 < mu ∧ 0 < alpha ∧ mu = nbMean n p ∧
      mu + mu ^ 2 / alpha = nbVar n p ∧ nbToNP mu alpha = (n, p) := by
  have h1p : 0 < 1 - p := by linarith
  have hmu : n * (1 / p - 1) = nbMean n p := by unfold nbMean; field_simp
  refine ⟨_, _, nbFromNP_ok hp0.ne', ?_, hn, hmu, ?_, ?_⟩
  · rw [hmu]; unfold nbMean; positivity
  · rw [hmu]; unfold nbMean nbVar; field_simp; ring
  · unfold nbToNP; rw [hmu]; unfold nbMean
    refine Prod.ext rfl ?_
    simp only; field_simp; ring

example : (0 : ℝ) < 7 ∧ (0 : ℝ) < 0.25 ∧ (0.25 : ℝ) < 1 := by norm_num

/-- C03: NegativeBinomial `(mu, alpha)`, out and back. -/
theorem nb_to_from (mu alpha : ℝ) (hm : 0 < mu) (ha : 0 < alpha) :
    let np := nbToNP mu alpha
    0 < np.2 ∧ np.2 < 1 ∧ nbMean np.1 np.2 = mu ∧ nbFromNP np.1 np.2 = .ok (mu, alpha) := by
  have hs : 0 < mu + alpha := by linarith
  have hp : 0 < alpha / (mu + alpha) := by positivity
  refine ⟨hp, ?_, ?_, ?_⟩
  · simp only [nbToNP]; rw [div_lt_one hs]; linarith
  · simp only [nbToNP, nbMean]; field_simp; ring
  · simp only [nbToNP]; rw [nbFromNP_ok hp.ne']
    congr 2; field_simp; ring

example : (0 : ℝ) < 7 ∧ (0 : ℝ) < 0.25 := by norm_num

/-- C03: Wald: each of the three pairs determines the other parameter consistently. -/
theorem wald_round_trips (mu lam phi : ℝ) (hm : 0 < mu) (hl : 0 < lam) (hp : 0 < phi) :
    waldToPhi mu (waldFromMuPhi mu phi) = phi ∧ waldFromMuPhi mu (waldToPhi mu lam) = lam ∧
    (∃ m, waldFromLamPhi lam phi = .ok m ∧ 0 < m ∧ waldToPhi m lam = phi) ∧
    waldFromLamPhi lam (waldToPhi mu lam) = .ok mu := by
  unfold waldToPhi waldFromMuPhi waldFromLamPhi
  refine ⟨by field_simp, by field_simp, ⟨lam / phi, pyDiv_ok hp.ne', by positivity, by field_simp⟩, ?_⟩
  rw [pyDiv_ok (by positivity)]; congr 1; field_simp

example : (0 : ℝ) < 7 ∧ (0 : ℝ) < 0.25 ∧ (0 : ℝ) < 3 := by norm_num

/-- C03: Rice. -/
theorem rice_round_trips (nu b sigma : ℝ) (hs : 0 < sigma) :
    riceToB (riceFromB b sigma) sigma = b ∧ riceFromB (riceToB nu sigma) sigma = nu := by
  unfold riceToB riceFromB
  constructor <;> field_simp

example : (0 : ℝ) < 7 := by norm_num

/-- C03: AsymmetricLaplace `q`. -/
theorem asym_laplace_round_trips :
    (∀ q, 0 < q → q < 1 → ∃ k, asymLaplaceFromQ q = .ok k ∧ 0 < k ∧ asymLaplaceToQ k = q) ∧
    (∀ k, 0 < k → 0 < asymLaplaceToQ k ∧ asymLaplaceToQ k < 1 ∧
      asymLaplaceFromQ (asymLaplaceToQ k) = .ok k) := by
  constructor
  · intro q h0 h1
    have h1q : 0 < 1 - q := by linarith
    refine ⟨_, asymLaplaceFromQ_ok h0 h1, by positivity, ?_⟩
    unfold asymLaplaceToQ
    rw [Real.sq_sqrt (by positivity)]; field_simp; ring
  · intro k hk
    have h0 : 0 < asymLaplaceToQ k := by unfold asymLaplaceToQ; positivity
    have h1 : asymLaplaceToQ k < 1 := by
      unfold asymLaplaceToQ; rw [div_lt_one (by positivity)]; linarith
    refine ⟨h0, h1, ?_⟩
    rw [asymLaplaceFromQ_ok h0 h1]
    have : asymLaplaceToQ k / (1 - asymLaplaceToQ k) = k ^ 2 := by
      unfold asymLaplaceToQ; field_simp; ring
    rw [this, Real.sqrt_sq hk.le]

/-- C03: Exponential: `scale` and `lam` are reciprocal, both ways. -/
theorem exponential_round_trips :
    (∀ s, 0 < s → ∃ l, pyDiv 1 s = .ok l ∧ 0 < l ∧ 1 / l = s) ∧
    (∀ l : ℝ, 0 < l → pyDiv 1 (1 / l) = .ok l) := by
  constructor
  · intro s hs; exact ⟨1 / s, pyDiv_ok hs.ne', by positivity, by field_simp⟩
  · intro l hl; rw [pyDiv_ok (by positivity)]; congr 1; field_simp

/-- C03: `expit` maps the line into (0,1) and `logit` inverts it. -/
theorem logit_expit (x : ℝ) : 0 < expit x ∧ expit x < 1 ∧ logit (expit x) = some x := by
  have hform : expit x = Real.exp x / (1 + Real.exp x) := by
    unfold expit; split
    · rw [Real.exp_neg]; field_simp; ring
    · rfl
  have he := Real.exp_pos x
  have h0 : 0 < expit x := by rw [hform]; positivity
  have h1 : expit x < 1 := by rw [hform, div_lt_one (by positivity)]; linarith
  refine ⟨h0, h1, ?_⟩
  unfold logit
  rw [if_neg h0.ne', if_neg h1.ne, if_neg (by push Not; exact ⟨h0.le, h1.le⟩)]
  have : expit x / (1 - expit x) = Real.exp x := by
    rw [hform]; field_simp; ring
  rw [this, Real.log_exp]

/-- C03: `expit` inverts `logit` on (0, 1). -/
theorem expit_logit (p : ℝ) (h0 : 0 < p) (h1 : p < 1) :
    ∃ x, logit p = some x ∧ expit x = p := by
  have h1p : 0 < 1 - p := by linarith
  refine ⟨Real.log (p / (1 - p)), ?_, ?_⟩
  · unfold logit
    rw [if_neg h0.ne', if_neg h1.ne, if_neg (by push Not; exact ⟨h0.le, h1.le⟩)]
  · have hq : 0 < p / (1 - p) := by positivity
    unfold expit; split
    · rw [Real.exp_neg, Real.exp_log hq]; field_simp; ring
    · rw [Real.exp_log hq]; field_simp; ring

example : (0 : ℝ) < 0.25 ∧ (0.25 : ℝ) < 1 := by norm_num

/-! ## C04 precision -/

/-- C04 is false of the code: for every precision the reported value differs from the requested one
(`to_precision` adds machine epsilon to the variance). -/
theorem precision_not_round_trip (tau : ℝ) (h : 0 < tau) :
    ∃ sigma, fromPrecision tau = .ok sigma ∧ toPrecision sigma < tau := by
  refine ⟨_, fromPrecision_ok h, ?_⟩
  unfold toPrecision
  rw [div_pow, Real.sq_sqrt h.le, one_pow, div_lt_iff₀ (by have := eps_pos; positivity)]
  have := eps_pos
  have h3 : tau * (1 / tau) = 1 := by field_simp
  nlinarith [mul_pos h this]

/-- C04 (what does hold): `sigma = tau^(-1/2)` exactly, and the reported precision is
`tau / (1 + eps * tau)`, i.e. its relative error is below `eps * tau`. Missing: equality, which is
false (`precision_not_round_trip`). -/
theorem precision_round_trip_partial (tau : ℝ) (h : 0 < tau) :
    ∃ sigma, fromPrecision tau = .ok sigma ∧ 0 < sigma ∧ sigma ^ 2 = 1 / tau ∧
      toPrecision sigma = tau / (1 + eps * tau) ∧
      tau - toPrecision sigma < eps * tau * tau ∧ toPrecision sigma < tau := by
  have he := eps_pos
  have hp : toPrecision (1 / Real.sqrt tau) = tau / (1 + eps * tau) := by
    unfold toPrecision
    rw [div_pow, Real.sq_sqrt h.le, one_pow]; field_simp
    ring
  have hd : 0 < 1 + eps * tau := by positivity
  refine ⟨_, fromPrecision_ok h, by positivity, ?_, hp, ?_, ?_⟩
  · rw [div_pow, Real.sq_sqrt h.le, one_pow]
  · rw [hp, sub_lt_iff_lt_add, ← sub_lt_iff_lt_add', lt_div_iff₀ hd]
    have : 0 < eps * tau := by positivity
    nlinarith [mul_pos this h, mul_pos (mul_pos this this) h]
  · rw [hp, div_lt_iff₀ hd]
    nlinarith [mul_pos h (mul_pos he h)]

example : (0 : ℝ) < 4 := by norm_num

/-- C04: the other direction, from a standard deviation: the reported precision is always finite and
positive, and below `1/sigma²`. -/
theorem precision_of_sigma (sigma : ℝ) (h : sigma ≠ 0) :
    0 < toPrecision sigma ∧ toPrecision sigma < 1 / sigma ^ 2 := by
  have he := eps_pos
  have h2 : 0 < sigma ^ 2 := by positivity
  unfold toPrecision
  exact ⟨by positivity, div_lt_div_of_pos_left one_pos h2 (by linarith)⟩

end Verif.Props
