import Verif.Props.RoundTrip
import Verif.Lemmas.Param4

/-!
# C01–C04 at the level of objects

What a distribution object reports after being built (or re-parametrised, whatever its previous
state `o`) from an alternative parametrisation, and after a refit to canonical parameters.
-/

set_option linter.unusedSimpArgs false

namespace Verif.Props
open Verif Verif.Param Verif.Spec

/-! ## C01 Beta -/

/-- C01: `Beta(mu=, sigma=)` reports these values, `alpha`, `beta > 0` with that mean and standard
deviation, and `nu = alpha + beta`. -/
theorem beta_object_mu_sigma (mu sigma : ℝ) (o : Obj) (hm0 : 0 < mu) (hm1 : mu < 1)
    (hs : 0 < sigma) (hv : sigma ^ 2 < mu * (1 - mu)) :
    ∃ a b, 0 < a ∧ 0 < b ∧ betaMean a b = mu ∧ betaVar a b = sigma ^ 2 ∧
      Gives (parametrize .beta (kwOf [("mu", mu), ("sigma", sigma)]) o) fun o' =>
        Reports o' [("mu", mu), ("sigma", sigma)] [("alpha", a), ("beta", b), ("nu", a + b)] := by
  obtain ⟨a, b, h1, ha, hb, h2, h3, h4⟩ := beta_from_mu_sigma mu sigma hm0 hm1 hs hv
  obtain ⟨-, -, -, hnu, -⟩ := beta_to_from a b ha hb
  rw [h4] at hnu
  simp only at hnu
  refine ⟨a, b, ha, hb, h2, h3, ?_⟩
  simp [parametrize, betaParam, kwOf, List.lookup, anyNotNone, allNotNone, h1,
    Reports, betaUpdate, h4, hnu, Obj.setAll, Obj.set]

example : (0 : ℝ) < 0.3 ∧ (0.3 : ℝ) < 1 ∧ (0 : ℝ) < 0.2 ∧ (0.2 : ℝ) ^ 2 < 0.3 * (1 - 0.3) := by
  norm_num

/-- C01: `Beta(mu=, nu=)`. -/
theorem beta_object_mu_nu (mu nu : ℝ) (o : Obj) (hm0 : 0 < mu) (hm1 : mu < 1) (hn : 0 < nu) :
    ∃ a b sigma, 0 < a ∧ 0 < b ∧ betaMean a b = mu ∧ a + b = nu ∧ 0 < sigma ∧
      sigma ^ 2 = betaVar a b ∧
      Gives (parametrize .beta (kwOf [("mu", mu), ("nu", nu)]) o) fun o' =>
        Reports o' [("mu", mu), ("nu", nu)] [("alpha", a), ("beta", b), ("sigma", sigma)] := by
  obtain ⟨ha, hb, h1, h2, h3, h4⟩ := beta_from_mu_nu mu nu hm0 hm1 hn
  obtain ⟨-, hs, hs2, -⟩ := beta_to_from _ _ ha hb
  refine ⟨_, _, _, ha, hb, h1, h2, hs, hs2, ?_⟩
  simp only [betaFromMuNu] at h3 h4
  rw [h3] at h4
  simp [parametrize, betaParam, kwOf, List.lookup, anyNotNone, allNotNone,
    Reports, betaUpdate, betaFromMuNu, h3, h4, Obj.setAll, Obj.set]

example : (0 : ℝ) < 0.3 ∧ (0.3 : ℝ) < 1 ∧ (0 : ℝ) < 4 := by norm_num

/-- C01: `Beta(alpha=, beta=)` and every refit of a Beta to new shape parameters: mean, standard
deviation and `nu` reported are the textbook ones. -/
theorem beta_object_alpha_beta (a b : ℝ) (o : Obj) (ha : 0 < a) (hb : 0 < b) :
    ∃ sigma, 0 < sigma ∧ sigma ^ 2 = betaVar a b ∧
      (Gives (parametrize .beta (kwOf [("alpha", a), ("beta", b)]) o) fun o' =>
        Reports o' [("alpha", a), ("beta", b)]
          [("mu", betaMean a b), ("sigma", sigma), ("nu", a + b)]) ∧
      (o.names = ["mu", "sigma"] → Gives (update .beta [a, b] o) fun o' =>
        Reports o' [("mu", betaMean a b), ("sigma", sigma)]
          [("alpha", a), ("beta", b), ("nu", a + b)]) ∧
      (o.names = ["mu", "nu"] → Gives (update .beta [a, b] o) fun o' =>
        Reports o' [("mu", betaMean a b), ("nu", a + b)]
          [("alpha", a), ("beta", b), ("sigma", sigma)]) := by
  obtain ⟨hm, hs, hs2, hnu, -⟩ := beta_to_from a b ha hb
  rw [hm] at hnu
  refine ⟨_, hs, hs2, ?_, ?_, ?_⟩
  · simp [parametrize, betaParam, kwOf, List.lookup, anyNotNone, allNotNone,
      Reports, betaUpdate, hm, hnu, Obj.setAll, Obj.set]
  · intro h
    simp [update, Reports, betaUpdate, hm, hnu, Obj.setAll, Obj.set, h]
  · intro h
    simp [update, Reports, betaUpdate, hm, hnu, Obj.setAll, Obj.set, h]

example : (0 : ℝ) < 2 ∧ (0 : ℝ) < 5 := by norm_num

/-! ## C02 Gamma, InverseGamma -/

/-- C02: `Gamma(mu=, sigma=)`. -/
theorem gamma_object_mu_sigma (mu sigma : ℝ) (o : Obj) (hm : 0 < mu) (hs : 0 < sigma) :
    ∃ a b, 0 < a ∧ 0 < b ∧ gammaMean a b = mu ∧ gammaVar a b = sigma ^ 2 ∧
      Gives (parametrize .gamma (kwOf [("mu", mu), ("sigma", sigma)]) o) fun o' =>
        Reports o' [("mu", mu), ("sigma", sigma)] [("alpha", a), ("beta", b)] := by
  obtain ⟨a, b, h1, ha, hb, h2, h3, h4⟩ := gamma_from_mu_sigma mu sigma hm hs
  refine ⟨a, b, ha, hb, h2, h3, ?_⟩
  simp [parametrize, gammaLikeParam, kwOf, List.lookup, anyNotNone, allNotNone, h1,
    Reports, gammaUpdate, h4, Obj.setAll, Obj.set]

example : (0 : ℝ) < 3 ∧ (0 : ℝ) < 0.5 := by norm_num

/-- C02: `Gamma(alpha=, beta=)` and refits of `Gamma(mu=, sigma=)`. -/
theorem gamma_object_alpha_beta (a b : ℝ) (o : Obj) (ha : 0 < a) (hb : 0 < b) :
    ∃ sigma, 0 < sigma ∧ sigma ^ 2 = gammaVar a b ∧
      (Gives (parametrize .gamma (kwOf [("alpha", a), ("beta", b)]) o) fun o' =>
        Reports o' [("alpha", a), ("beta", b)] [("mu", gammaMean a b), ("sigma", sigma)]) ∧
      (o.names = ["mu", "sigma"] → Gives (update .gamma [a, b] o) fun o' =>
        Reports o' [("mu", gammaMean a b), ("sigma", sigma)] [("alpha", a), ("beta", b)]) := by
  obtain ⟨hm, hs, hs2, -⟩ := gamma_to_from a b ha hb
  refine ⟨_, hs, hs2, ?_, ?_⟩
  · simp [parametrize, gammaLikeParam, kwOf, List.lookup, anyNotNone, allNotNone,
      Reports, gammaUpdate, hm, Obj.setAll, Obj.set]
  · intro h
    simp [update, Reports, gammaUpdate, hm, Obj.setAll, Obj.set, h]

example : (0 : ℝ) < 3 ∧ (0 : ℝ) < 0.5 := by norm_num

/-- C02: `InverseGamma(mu=, sigma=)`. -/
theorem invgamma_object_mu_sigma (mu sigma : ℝ) (o : Obj) (hm : 0 < mu) (hs : 0 < sigma) :
    ∃ a b, 2 < a ∧ 0 < b ∧ invGammaMean a b = mu ∧ invGammaVar a b = sigma ^ 2 ∧
      Gives (parametrize .inverseGamma (kwOf [("mu", mu), ("sigma", sigma)]) o) fun o' =>
        Reports o' [("mu", mu), ("sigma", sigma)] [("alpha", a), ("beta", b)] := by
  obtain ⟨a, b, h1, ha, hb, h2, h3, h4, h5⟩ := invgamma_from_mu_sigma mu sigma hm hs
  refine ⟨a, b, ha, hb, h2, h3, ?_⟩
  simp [parametrize, gammaLikeParam, kwOf, List.lookup, anyNotNone, allNotNone, h1,
    Reports, invGammaUpdate, h4, h5, Obj.setAll, Obj.set]

example : (0 : ℝ) < 3 ∧ (0 : ℝ) < 0.5 := by norm_num

/-- C02: `InverseGamma(alpha=, beta=)` with finite variance, and refits of
`InverseGamma(mu=, sigma=)`. -/
theorem invgamma_object_alpha_beta (a b : ℝ) (o : Obj) (ha : 2 < a) (hb : 0 < b) :
    ∃ sigma, 0 < sigma ∧ sigma ^ 2 = invGammaVar a b ∧
      (Gives (parametrize .inverseGamma (kwOf [("alpha", a), ("beta", b)]) o) fun o' =>
        Reports o' [("alpha", a), ("beta", b)] [("mu", invGammaMean a b), ("sigma", sigma)]) ∧
      (o.names = ["mu", "sigma"] → Gives (update .inverseGamma [a, b] o) fun o' =>
        Reports o' [("mu", invGammaMean a b), ("sigma", sigma)] [("alpha", a), ("beta", b)]) := by
  obtain ⟨m, s, h1, h2, -, hs, hm, hs2, -⟩ := invgamma_to_from a b ha hb
  refine ⟨s, hs, hs2, ?_, ?_⟩
  · simp [parametrize, gammaLikeParam, kwOf, List.lookup, anyNotNone, allNotNone,
      Reports, invGammaUpdate, h1, h2, hm, Obj.setAll, Obj.set]
  · intro h
    simp [update, Reports, invGammaUpdate, h1, h2, hm, Obj.setAll, Obj.set, h]

example : (2 : ℝ) < 3 ∧ (0 : ℝ) < 0.5 := by norm_num

/-- C02: without a finite variance the object reports no `sigma`, without a finite mean no `mu`
(`nan`), and stays frozen with the given shape parameters. -/
theorem invgamma_object_undefined (a b : ℝ) (o : Obj) (ha : a ≤ 2) :
    Gives (parametrize .inverseGamma (kwOf [("alpha", a), ("beta", b)]) o) fun o' =>
      Reports o' [("alpha", a), ("beta", b)] [] ∧ o'.attr "sigma" = none ∧
        (a ≤ 1 → o'.attr "mu" = none) := by
  have h := invgamma_undefined a b
  simp [parametrize, gammaLikeParam, kwOf, List.lookup, anyNotNone, allNotNone,
    Reports, invGammaUpdate, h.2 ha, Obj.setAll, Obj.set]
  exact h.1

example : (1.5 : ℝ) ≤ 2 ∧ (0.5 : ℝ) ≤ 1 := by norm_num

/-! ## C03 -/

/-- C03: `NegativeBinomial(p=, n=)`. -/
theorem nb_object_p_n (p n : ℝ) (o : Obj) (hn : 0 < n) (hp0 : 0 < p) (hp1 : p < 1) :
    ∃ mu alpha, 0 < mu ∧ 0 < alpha ∧ mu = nbMean n p ∧ mu + mu ^ 2 / alpha = nbVar n p ∧
      (Gives (parametrize .negativeBinomial (kwOf [("p", p), ("n", n)]) o) fun o' =>
        Reports o' [("p", p), ("n", n)] [("mu", mu), ("alpha", alpha)]) ∧
      (∀ psi, Gives (parametrize .ziNegativeBinomial (kwOf [("psi", psi), ("p", p), ("n", n)]) o)
        fun o' => Reports o' [("psi", psi), ("p", p), ("n", n)] [("mu", mu), ("alpha", alpha)]) := by
  obtain ⟨mu, al, h1, hm, ha, h2, h3, h4⟩ := nb_from_to n p hn hp0 hp1
  refine ⟨mu, al, hm, ha, h2, h3, ?_, fun psi => ?_⟩
  · simp [parametrize, nbParam, kwOf, List.lookup, anyNotNone, allNotNone, h1,
      Reports, nbUpdate, h4, Obj.setAll, Obj.set]
  · simp [parametrize, zinbParam, kwOf, List.lookup, anyNotNone, allNotNone, h1,
      Reports, zinbUpdate, h4, Obj.setAll, Obj.set]

example : (0 : ℝ) < 7 ∧ (0 : ℝ) < 0.25 ∧ (0.25 : ℝ) < 1 := by norm_num

/-- C03: `NegativeBinomial(mu=, alpha=)` and refits of `NegativeBinomial(p=, n=)`. -/
theorem nb_object_mu_alpha (mu alpha : ℝ) (o : Obj) (hm : 0 < mu) (ha : 0 < alpha) :
    ∃ p, 0 < p ∧ p < 1 ∧ nbMean alpha p = mu ∧
      (Gives (parametrize .negativeBinomial (kwOf [("mu", mu), ("alpha", alpha)]) o) fun o' =>
        Reports o' [("mu", mu), ("alpha", alpha)] [("p", p), ("n", alpha)]) ∧
      (o.names = ["p", "n"] → Gives (update .negativeBinomial [mu, alpha] o) fun o' =>
        Reports o' [("p", p), ("n", alpha)] [("mu", mu), ("alpha", alpha)]) ∧
      (∀ psi, o.names = ["psi", "p", "n"] → Gives (update .ziNegativeBinomial [psi, mu, alpha] o)
        fun o' => Reports o' [("psi", psi), ("p", p), ("n", alpha)]
          [("mu", mu), ("alpha", alpha)]) := by
  obtain ⟨h0, h1, h2, h3⟩ := nb_to_from mu alpha hm ha
  refine ⟨_, h0, h1, h2, ?_, fun h => ?_, fun psi h => ?_⟩
  · simp [parametrize, nbParam, kwOf, List.lookup, anyNotNone, allNotNone,
      Reports, nbUpdate, nbToNP, Obj.setAll, Obj.set]
  · simp [update, Reports, nbUpdate, nbToNP, Obj.setAll, Obj.set, h]
  · simp [update, Reports, zinbUpdate, nbToNP, Obj.setAll, Obj.set, h]

example : (0 : ℝ) < 7 ∧ (0 : ℝ) < 0.25 := by norm_num

/-- C03: the three Wald parametrisations describe the same law `phi = lam / mu` and report the call
back. -/
theorem wald_objects (mu lam phi : ℝ) (o : Obj) (hm : 0 < mu) (hl : 0 < lam) (hp : phi = lam / mu) :
    (Gives (parametrize .wald (kwOf [("mu", mu), ("lam", lam)]) o) fun o' =>
      Reports o' [("mu", mu), ("lam", lam)] [("phi", phi)]) ∧
    (Gives (parametrize .wald (kwOf [("mu", mu), ("phi", phi)]) o) fun o' =>
      Reports o' [("mu", mu), ("phi", phi)] [("lam", lam)]) ∧
    (Gives (parametrize .wald (kwOf [("lam", lam), ("phi", phi)]) o) fun o' =>
      Reports o' [("lam", lam), ("phi", phi)] [("mu", mu)]) := by
  have hphi : 0 < phi := by rw [hp]; positivity
  have h1 : mu * phi = lam := by rw [hp]; field_simp
  have h2 : lam / phi = mu := by rw [hp]; field_simp
  refine ⟨?_, ?_, ?_⟩
  · simp [parametrize, waldParam, kwOf, List.lookup, anyNotNone, allNotNone, Reports, waldUpdate,
      waldToPhi, Obj.setAll, Obj.set, hp]
  · simp [parametrize, waldParam, kwOf, List.lookup, anyNotNone, allNotNone, Reports, waldUpdate,
      waldToPhi, Obj.setAll, Obj.set, pyAnd, hm.ne', waldFromMuPhi, h1, hp.symm]
  · simp [parametrize, waldParam, kwOf, List.lookup, anyNotNone, allNotNone, Reports, waldUpdate,
      waldToPhi, Obj.setAll, Obj.set, pyAnd, hl.ne', waldFromLamPhi, pyDiv_ok hphi.ne', h2, hp.symm]

example : (0 : ℝ) < 2 ∧ (0 : ℝ) < 6 ∧ (3 : ℝ) = 6 / 2 := by norm_num

/-- C03: Rice. -/
theorem rice_objects (nu b sigma : ℝ) (o : Obj) (hs : 0 < sigma) (hb : b = nu / sigma) :
    (Gives (parametrize .rice (kwOf [("nu", nu), ("sigma", sigma)]) o) fun o' =>
      Reports o' [("nu", nu), ("sigma", sigma)] [("b", b)]) ∧
    (Gives (parametrize .rice (kwOf [("b", b), ("sigma", sigma)]) o) fun o' =>
      Reports o' [("b", b), ("sigma", sigma)] [("nu", nu)]) := by
  have h1 : b * sigma = nu := by rw [hb]; field_simp
  constructor
  · simp [parametrize, riceParam, kwOf, List.lookup, anyNotNone, allNotNone, Reports, riceUpdate,
      riceToB, Obj.setAll, Obj.set, hb]
  · simp [parametrize, riceParam, kwOf, List.lookup, anyNotNone, allNotNone, Reports, riceUpdate,
      riceToB, riceFromB, Obj.setAll, Obj.set, h1, hb.symm]

example : (0 : ℝ) < 2 ∧ (3 : ℝ) = 6 / 2 := by norm_num

/-- C03: AsymmetricLaplace; `q` and `kappa` are tied by `q = kappa² / (1 + kappa²)`. -/
theorem asym_laplace_objects (kappa q mu b : ℝ) (o : Obj) (hk : 0 < kappa)
    (hq : q = kappa ^ 2 / (1 + kappa ^ 2)) :
    0 < q ∧ q < 1 ∧
    (Gives (parametrize .asymmetricLaplace (kwOf [("kappa", kappa), ("mu", mu), ("b", b)]) o)
      fun o' => Reports o' [("kappa", kappa), ("mu", mu), ("b", b)] [("q", q)]) ∧
    (Gives (parametrize .asymmetricLaplace (kwOf [("q", q), ("mu", mu), ("b", b)]) o)
      fun o' => Reports o' [("q", q), ("mu", mu), ("b", b)] [("kappa", kappa)]) := by
  obtain ⟨h0, h1, h2⟩ := asym_laplace_round_trips.2 kappa hk
  have hq' : asymLaplaceToQ kappa = q := hq.symm
  rw [hq'] at h0 h1 h2
  refine ⟨h0, h1, ?_, ?_⟩
  · simp [parametrize, asymLaplaceParam, kwOf, List.lookup, anyNotNone, allNotNone, Reports,
      asymLaplaceUpdate, Obj.setAll, Obj.set, hq']
  · simp [parametrize, asymLaplaceParam, kwOf, List.lookup, anyNotNone, allNotNone, Reports,
      asymLaplaceUpdate, Obj.setAll, Obj.set, hq', h2]

example : (0 : ℝ) < 2 ∧ (0.8 : ℝ) = 2 ^ 2 / (1 + 2 ^ 2) := by norm_num

/-- every `q` in (0, 1) is reached by some `kappa` (so `asym_laplace_objects` covers every call) -/
theorem asym_laplace_every_q (q : ℝ) (h0 : 0 < q) (h1 : q < 1) :
    ∃ kappa, 0 < kappa ∧ q = kappa ^ 2 / (1 + kappa ^ 2) := by
  obtain ⟨k, -, hk, hq⟩ := asym_laplace_round_trips.1 q h0 h1
  exact ⟨k, hk, hq.symm⟩

/-- C03: Exponential. -/
theorem exponential_objects (lam scale : ℝ) (o : Obj) (hl : 0 < lam) (hs : scale = 1 / lam) :
    (Gives (parametrize .exponential (kwOf [("lam", lam)]) o) fun o' =>
      Reports o' [("lam", lam)] [("scale", scale)]) ∧
    (Gives (parametrize .exponential (kwOf [("scale", scale)]) o) fun o' =>
      Reports o' [("scale", scale)] [("lam", lam)]) := by
  have hsp : 0 < scale := by rw [hs]; positivity
  have h2 : 1 / scale = lam := by rw [hs]; field_simp
  have h3 := hs.symm
  rw [one_div] at h2 h3
  constructor
  · simp [parametrize, exponentialParam, kwOf, List.lookup, anyNotNone, allNotNone, Reports,
      exponentialUpdate, Obj.setAll, Obj.set, h3]
  · simp [parametrize, exponentialParam, kwOf, List.lookup, anyNotNone, allNotNone, Reports,
      exponentialUpdate, Obj.setAll, Obj.set, pyDiv_ok hsp.ne', h2, h3]

example : (0 : ℝ) < 4 ∧ (0.25 : ℝ) = 1 / 4 := by norm_num

/-- C03: Bernoulli with log-odds. -/
theorem bernoulli_objects (l : ℝ) (o : Obj) :
    ∃ p, 0 < p ∧ p < 1 ∧ Real.log (p / (1 - p)) = l ∧
      (Gives (parametrize .bernoulli (kwOf [("logit_p", l)]) o) fun o' =>
        Reports o' [("logit_p", l)] [("p", p)]) ∧
      (Gives (parametrize .bernoulli (kwOf [("p", p)]) o) fun o' =>
        Reports o' [("p", p)] [("logit_p", l)]) := by
  obtain ⟨h0, h1, h2⟩ := logit_expit l
  have h3 : Real.log (expit l / (1 - expit l)) = l := by
    unfold logit at h2
    rw [if_neg h0.ne', if_neg h1.ne, if_neg (by push Not; exact ⟨h0.le, h1.le⟩)] at h2
    simpa using h2
  refine ⟨expit l, h0, h1, h3, ?_, ?_⟩
  · simp [parametrize, bernoulliParam, kwOf, List.lookup, anyNotNone, allNotNone, Reports,
      bernoulliUpdate, Obj.setAll, Obj.set, h2]
  · simp [parametrize, bernoulliParam, kwOf, List.lookup, anyNotNone, allNotNone, Reports,
      bernoulliUpdate, Obj.setAll, Obj.set, h2]

/-! ## C04 -/

/-- C04 (partial): every family with a precision argument, built from a precision `tau > 0`, carries
the standard deviation with `sigma² = 1 / tau` exactly and reports a precision that is short of `tau`
by less than `eps * tau²`.  Missing: the reported precision is never exactly the requested one
(`precision_not_round_trip`). -/
theorem precision_objects_partial (tau : ℝ) (o : Obj) (ht : 0 < tau) :
    ∃ sigma tau', 0 < sigma ∧ sigma ^ 2 = 1 / tau ∧ tau - eps * tau ^ 2 < tau' ∧ tau' < tau ∧
      (∀ mu, Gives (parametrize .normal (kwOf [("mu", mu), ("tau", tau)]) o) fun o' =>
        o'.names = ["mu", "tau"] ∧ o'.params = some [some mu, some tau'] ∧
        o'.attr "sigma" = some sigma ∧ o'.attr "tau" = some tau' ∧ o'.frozen = true) ∧
      (∀ mu, Gives (parametrize .logitNormal (kwOf [("mu", mu), ("tau", tau)]) o) fun o' =>
        o'.names = ["mu", "tau"] ∧ o'.params = some [some mu, some tau'] ∧
        o'.attr "sigma" = some sigma ∧ o'.attr "tau" = some tau' ∧ o'.frozen = true) ∧
      (Gives (parametrize .halfNormal (kwOf [("tau", tau)]) o) fun o' =>
        o'.names = ["tau"] ∧ o'.params = some [some tau'] ∧
        o'.attr "sigma" = some sigma ∧ o'.attr "tau" = some tau' ∧ o'.frozen = true) ∧
      (∀ nu, Gives (parametrize .halfStudentT (kwOf [("nu", nu), ("lam", tau)]) o) fun o' =>
        o'.names = ["nu", "lam"] ∧ o'.params = some [some nu, some tau'] ∧
        o'.attr "sigma" = some sigma ∧ o'.attr "lam" = some tau' ∧ o'.frozen = true) ∧
      (∀ nu mu, Gives (parametrize .studentT (kwOf [("nu", nu), ("mu", mu), ("lam", tau)]) o)
        fun o' => o'.names = ["nu", "mu", "lam"] ∧ o'.params = some [some nu, some mu, some tau'] ∧
        o'.attr "sigma" = some sigma ∧ o'.attr "lam" = some tau' ∧ o'.frozen = true) ∧
      (∀ mu al, Gives (parametrize .skewNormal (kwOf [("mu", mu), ("tau", tau), ("alpha", al)]) o)
        fun o' => o'.names = ["mu", "tau", "alpha"] ∧
        o'.params = some [some mu, some tau', some al] ∧
        o'.attr "sigma" = some sigma ∧ o'.attr "tau" = some tau' ∧ o'.frozen = true) ∧
      (∀ mu a b, Gives (parametrize .skewStudentT
          (kwOf [("mu", mu), ("lam", tau), ("a", a), ("b", b)]) o)
        fun o' => o'.names = ["mu", "lam", "a", "b"] ∧
        o'.params = some [some mu, some tau', some a, some b] ∧
        o'.attr "sigma" = some sigma ∧ o'.attr "lam" = some tau' ∧ o'.frozen = true) := by
  obtain ⟨s, h1, h2, h3, -, h5, h6⟩ := precision_round_trip_partial tau ht
  refine ⟨s, toPrecision s, h2, h3, by nlinarith, h6, fun mu => ?_, fun mu => ?_, ?_, fun nu => ?_,
    fun nu mu => ?_, fun mu al => ?_, fun mu a b => ?_⟩
  all_goals
    simp [parametrize, normalParam, halfNormalParam, halfStudentTParam, studentTParam,
      skewNormalParam, skewStudentTParam, kwOf, List.lookup, allNotNone, h1,
      normalUpdate, halfNormalUpdate, halfStudentTUpdate, studentTUpdate, skewNormalUpdate,
      skewStudentTUpdate, Obj.setAll, Obj.set]

example : (0 : ℝ) < 4 := by norm_num

end Verif.Props
