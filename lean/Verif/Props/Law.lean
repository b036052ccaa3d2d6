import Verif.Props.Moments
import Verif.Props.Reported
import Verif.Lemmas.LawDiscrete
import Verif.Lemmas.LawLaplace
import Verif.Lemmas.LawLogGamma
import Verif.Lemmas.LawEven

/-!
# C106 – means and variances under the documented densities

C01, C02, C08–C10 speak of textbook means and variances (`tMean`, `tVar`).  Here these are the integrals of the documented
densities, so that the fits give laws with the requested mean and standard deviation.
-/

namespace Verif.Props
open Verif Verif.Param Verif.Spec MeasureTheory

/-- C106: for every family with a closed form and all admissible parameters with a finite variance, the documented density
or mass function has total mass one and its mean and variance are the textbook ones. -/
theorem moments_of_law (f : MomFam) (vals : List ℝ) (h : Admissible f vals) (hv : HasVar f vals) :
    HasMoments (lawOf f vals) (tMean f vals) (tVar f vals) := by
  cases f
  all_goals
    rcases vals with _ | ⟨a, _ | ⟨b, _ | ⟨c, _ | ⟨d, _ | ⟨e, t⟩⟩⟩⟩⟩ <;> try exact h.elim
  case asymmetricLaplace =>
    have := Law.asymmetricLaplace h.1 h.2 b
    simpa only [lawOf, tMean, tVar] using this
  case bernoulli => exact Law.bernoulli h.1 h.2
  case beta =>
    have := Law.beta h.1 h.2
    simpa only [lawOf, tMean, tVar, betaMean, betaVar] using this
  case betaScaled =>
    have := Law.betaScaled h.1 h.2.1 h.2.2
    simpa only [lawOf, tMean, tVar, betaMean, betaVar] using this
  case chiSquared => exact Law.chiSquared h
  case discreteUniform =>
    obtain ⟨⟨i, j, rfl, rfl⟩, hij⟩ := h
    have := Law.discreteUniform i j (by exact_mod_cast hij)
    simpa only [lawOf, tMean, tVar, Int.floor_intCast] using this
  case exponential => exact Law.exponential h
  case gamma => exact Law.gamma h.1 h.2
  case geometric => exact Law.geometric h.1 h.2
  case gumbel => exact Law.gumbel h a
  case halfNormal => exact Law.halfNormal h
  case inverseGamma => exact Law.inverseGamma hv h.2
  case laplace => exact Law.laplace h a
  case logistic => exact Law.logistic h a
  case logNormal => exact Law.logNormal h a
  case moyal => exact Law.moyal h a
  case normal => exact Law.normal h a
  case pareto => exact Law.pareto hv h.2
  case poisson => exact Law.poisson h
  case studentT => exact Law.studentT hv h.2 b
  case triangular =>
    have := Law.triangular h.1 h.2.1 h.2.2
    simpa only [lawOf, tMean, tVar] using this
  case uniform => exact Law.uniform h
  case wald => exact Law.wald h.1 h.2

example : Admissible .studentT [5, -1, 3] ∧ HasVar .studentT [5, -1, 3] := by
  simp only [Admissible, HasVar]; norm_num

private theorem moments_unique {P : Measure ℝ} {m v m' v' : ℝ} (h : HasMoments P m v) (h' : HasMoments P m' v') :
    m = m' ∧ v = v' := by
  have e : m = m' := by rw [← h.mean, h'.mean]
  subst e
  exact ⟨rfl, by rw [← h.var, h'.var]⟩

/-- C106: for an object with admissible parameters and a finite variance, the textbook moments are the requested ones
exactly when the law has the requested mean and standard deviation. -/
theorem matches_iff_law (f : MomFam) (vals : List ℝ) (m s : ℝ) (o : Obj) (ho : Holds f vals o) (h : Admissible f vals)
    (hv : HasVar f vals) : Matches f m s o ↔ MatchesLaw f m s o := by
  have key : ∀ w, Holds f w o → w = vals := fun w hw =>
    List.map_injective_iff.mpr (Option.some_injective _) (hw.2.symm.trans ho.2)
  constructor
  · rintro ⟨w, hw, ha, hf, rfl, hs⟩
    exact ⟨w, hw, by rw [← hs]; exact moments_of_law f w ha hf⟩
  · rintro ⟨w, hw, hl⟩
    obtain rfl := key w hw
    obtain ⟨e1, e2⟩ := moments_unique (moments_of_law f w h hv) hl
    exact ⟨w, hw, h, hv, e1, e2⟩

example : Holds .poisson [2] { (blank.set "mu" (some 2)) with frozen := true } ∧
    Admissible .poisson [2] ∧ HasVar .poisson [2] := by
  refine ⟨⟨rfl, by simp [canonNames, Obj.set]⟩, ?_, trivial⟩
  simp only [Admissible]; norm_num

private theorem to_law {f : MomFam} {m s : ℝ} {o : Obj} (h : Matches f m s o) : MatchesLaw f m s o := by
  obtain ⟨w, hw, ha, hf, -, -⟩ := id h
  exact (matches_iff_law f w m s o hw ha hf).mp h

private theorem Gives.imp {r : Except Err Obj} {P Q : Obj → Prop} (h : Gives r P) (hi : ∀ o, P o → Q o) : Gives r Q := by
  obtain ⟨o, ho, hp⟩ := h
  exact ⟨o, ho, hi o hp⟩

/-- C106: after fitting any mean and positive standard deviation, the location and scale families (Uniform excepted) have a
law with this mean and this standard deviation. -/
theorem location_scale_law (f : MomFam) (hf : f ∈ [.normal, .laplace, .asymmetricLaplace, .logistic, .gumbel, .moyal, .triangular])
    (m s : ℝ) (hs : 0 < s) (o : Obj) : Gives (fitMoments f m s o) (MatchesLaw f m s) :=
  Gives.imp (location_scale_moments f hf m s hs o) fun _ h => to_law h

example : MomFam.moyal ∈ [MomFam.normal, .laplace, .asymmetricLaplace, .logistic, .gumbel, .moyal, .triangular] ∧
    (0 : ℝ) < 0.1 := by constructor <;> norm_num

/-- C106: the same for the positive families and positive means. -/
theorem positive_law (f : MomFam) (hf : f ∈ [.gamma, .inverseGamma, .logNormal, .wald, .pareto]) (m s : ℝ) (hm : 0 < m)
    (hs : 0 < s) (o : Obj) : Gives (fitMoments f m s o) (MatchesLaw f m s) :=
  Gives.imp (positive_moments f hf m s hm hs o) fun _ h => to_law h

example : MomFam.wald ∈ [MomFam.gamma, .inverseGamma, .logNormal, .wald, .pareto] ∧ (0 : ℝ) < 3 ∧ (0 : ℝ) < 0.5 := by
  refine ⟨?_, ?_, ?_⟩ <;> norm_num

/-- C106: the families with one parameter.  Exponential, ChiSquared and Poisson get a law with the requested mean, HalfNormal
one with the requested standard deviation. -/
theorem one_parameter_law (m s : ℝ) (hm : 0 < m) (hs : 0 < s) (o : Obj) :
    (∀ f ∈ [MomFam.exponential, .chiSquared, .poisson], Gives (fitMoments f m s o) fun o' =>
      ∃ vals v, Holds f vals o' ∧ HasMoments (lawOf f vals) m v) ∧
    Gives (fitMoments .halfNormal m s o) fun o' =>
      ∃ vals c, Holds .halfNormal vals o' ∧ HasMoments (lawOf .halfNormal vals) c (s ^ 2) := by
  obtain ⟨h1, h2⟩ := one_parameter_moments m s hm hs o
  refine ⟨fun f hf => Gives.imp (h1 f hf) ?_, Gives.imp h2 ?_⟩
  · rintro o' ⟨vals, ho, ha, rfl⟩
    refine ⟨vals, tVar f vals, ho, moments_of_law f vals ha ?_⟩
    simp only [List.mem_cons, List.not_mem_nil, or_false] at hf
    rcases hf with rfl | rfl | rfl <;> trivial
  · rintro o' ⟨vals, ho, ha, hv⟩
    exact ⟨vals, tMean .halfNormal vals, ho, hv ▸ moments_of_law _ vals ha trivial⟩

example : (0 : ℝ) < 3 ∧ (0 : ℝ) < 0.5 := by norm_num

/-- C106 fails for Uniform: no requested standard deviation is that of the fitted law. -/
theorem uniform_law_not_exact (m s : ℝ) (hs : 0 < s) (o : Obj) :
    Gives (fitMoments .uniform m s o) fun o' => ¬ MatchesLaw .uniform m s o' := by
  obtain ⟨o', ho, h⟩ := uniform_moments_not_exact m s hs o
  obtain ⟨o'', ho', vals, hh, ha, -⟩ := uniform_moments_partial m s hs o
  rw [ho] at ho'
  obtain rfl : o' = o'' := Except.ok.inj ho'
  exact ⟨o', ho, fun hl => h ((matches_iff_law _ vals m s o' hh ha trivial).mpr hl)⟩

example : (0 : ℝ) < 2 := by norm_num

/-- C106, what holds for Uniform: the law has the requested mean and a standard deviation below the requested one by less
than one millionth of it. -/
theorem uniform_law_partial (m s : ℝ) (hs : 0 < s) (o : Obj) :
    Gives (fitMoments .uniform m s o) fun o' => ∃ vals v, Holds .uniform vals o' ∧ HasMoments (lawOf .uniform vals) m v ∧
      (s * (1 - 1e-6)) ^ 2 < v ∧ v < s ^ 2 := by
  refine Gives.imp (uniform_moments_partial m s hs o) ?_
  rintro o' ⟨vals, ho, ha, rfl, h1, h2⟩
  exact ⟨vals, _, ho, moments_of_law _ vals ha trivial, h1, h2⟩

example : (0 : ℝ) < 0.25 := by norm_num

/-- C106: a Beta whose exact shape parameters are at least one half, and the same for BetaScaled. -/
theorem beta_law_partial (m s : ℝ) (hs : 0 < s) (o : Obj) :
    (∀ a b, 0.5 ≤ a → 0.5 ≤ b → HasMoments (ofPdf (betaPdf a b)) m (s ^ 2) →
      Gives (fitMoments .beta m s o) (MatchesLaw .beta m s)) ∧
    (∀ l u, l < u → o.attr "lower" = some l → o.attr "upper" = some u → ∀ a b, 0.5 ≤ a → 0.5 ≤ b →
      HasMoments (ofPdf (betaScaledPdf a b l u)) m (s ^ 2) →
      Gives (fitMoments .betaScaled m s o) (MatchesLaw .betaScaled m s)) := by
  constructor
  · intro a b ha hb h
    obtain ⟨e1, e2⟩ := moments_unique (moments_of_law .beta [a, b] ⟨by linarith, by linarith⟩ trivial) h
    exact Gives.imp ((beta_moments_partial m s hs o).2 a b ha hb e1 e2) fun _ h => to_law h
  · intro l u hlu ol ou a b ha hb h
    obtain ⟨e1, e2⟩ := moments_unique (moments_of_law .betaScaled [a, b, l, u] ⟨by linarith, by linarith, hlu⟩ trivial) h
    exact Gives.imp ((beta_scaled_moments_partial m s l u hs hlu o ol ou).2 a b ha hb e1 e2) fun _ h => to_law h

/-- such a Beta law -/
example : HasMoments (ofPdf (betaPdf 2 2)) (1 / 2) (√(1 / 20) ^ 2) := by
  have := moments_of_law .beta [2, 2] ⟨two_pos, two_pos⟩ trivial
  rw [Real.sq_sqrt (by norm_num)]
  have e1 : tMean .beta [2, 2] = 1 / 2 := by norm_num [tMean, betaMean]
  have e2 : tVar .beta [2, 2] = 1 / 20 := by norm_num [tVar, betaVar]
  rwa [e1, e2] at this

/-- C106 fails for Beta: a Beta law with mean 1/2 and standard deviation 9/20 exists and the fit does not find it. -/
theorem beta_law_clamped (o : Obj) :
    (∃ a b, 0 < a ∧ 0 < b ∧ HasMoments (ofPdf (betaPdf a b)) (1 / 2) ((9 / 20) ^ 2)) ∧
    Gives (fitMoments .beta (1 / 2) (9 / 20) o) fun o' => ¬ MatchesLaw .beta (1 / 2) (9 / 20) o' := by
  obtain ⟨⟨a, b, ha, hb, e1, e2⟩, o', ho, h⟩ := beta_moments_clamped o
  refine ⟨⟨a, b, ha, hb, ?_⟩, ?_⟩
  · have := moments_of_law .beta [a, b] ⟨ha, hb⟩ trivial
    rwa [show tMean .beta [a, b] = 1 / 2 from e1, show tVar .beta [a, b] = (9 / 20) ^ 2 from e2] at this
  · obtain ⟨o'', ho', vals, hh, ha⟩ := (beta_moments_partial (1 / 2) (9 / 20) (by norm_num) o).1
    rw [ho] at ho'
    obtain rfl : o' = o'' := Except.ok.inj ho'
    exact ⟨o', ho, fun hl => h ((matches_iff_law _ vals _ _ o' hh ha trivial).mpr hl)⟩

/-- C106: StudentT with more than two degrees of freedom in the object before the fit. -/
theorem studentt_law_partial (m s nu : ℝ) (hs : 0 < s) (o : Obj) (ho : o.attr "nu" = some nu) (hn : 2 < nu) :
    Gives (fitMoments .studentT m s o) (MatchesLaw .studentT m s) :=
  Gives.imp ((studentt_moments_partial m s hs o).2 nu ho hn) fun _ h => to_law h.1

example : (0 : ℝ) < 2 ∧ (blank.set "nu" (some 5)).attr "nu" = some 5 ∧ (2 : ℝ) < 5 := by
  refine ⟨by norm_num, by simp [Obj.set], by norm_num⟩

/-- C106 fails for StudentT in the other cases, among them a StudentT without parameters. -/
theorem studentt_law_not_exact (m s : ℝ) (hs : 0 < s) (o : Obj)
    (h : o.attr "nu" = none ∨ ∃ nu, o.attr "nu" = some nu ∧ nu ≤ 2) :
    Gives (fitMoments .studentT m s o) fun o' => ¬ MatchesLaw .studentT m s o' := by
  obtain ⟨o', ho, hn⟩ := studentt_moments_not_exact m s hs o h
  obtain ⟨o'', ho', vals, hh, ha, hv, -⟩ := (studentt_moments_partial m s hs o).1
  rw [ho] at ho'
  obtain rfl : o' = o'' := Except.ok.inj ho'
  exact ⟨o', ho, fun hl => hn ((matches_iff_law _ vals m s o' hh ha hv).mpr hl)⟩

example : (0 : ℝ) < 2 ∧ blank.attr "nu" = none := ⟨by norm_num, rfl⟩

/-- C106: Beta, Gamma and InverseGamma given by mean and standard deviation are laws with this mean and standard
deviation. -/
theorem mu_sigma_law (mu sigma : ℝ) (o : Obj) (hm : 0 < mu) (hs : 0 < sigma) :
    (mu < 1 → sigma ^ 2 < mu * (1 - mu) →
      Gives (parametrize .beta (kwOf [("mu", mu), ("sigma", sigma)]) o) (MatchesLaw .beta mu sigma)) ∧
    Gives (parametrize .gamma (kwOf [("mu", mu), ("sigma", sigma)]) o) (MatchesLaw .gamma mu sigma) ∧
    Gives (parametrize .inverseGamma (kwOf [("mu", mu), ("sigma", sigma)]) o) (MatchesLaw .inverseGamma mu sigma) := by
  refine ⟨fun h1 hv => ?_, ?_, ?_⟩
  · obtain ⟨a, b, ha, hb, e1, e2, h⟩ := beta_object_mu_sigma mu sigma o hm h1 hs hv
    refine Gives.imp h fun o' hr => to_law ⟨[a, b], ?_, ⟨ha, hb⟩, trivial, e1, e2⟩
    simp only [Reports] at hr
    refine ⟨hr.1, ?_⟩
    simp_all [canonNames]
  · obtain ⟨a, b, ha, hb, e1, e2, h⟩ := gamma_object_mu_sigma mu sigma o hm hs
    refine Gives.imp h fun o' hr => to_law ⟨[a, b], ?_, ⟨ha, hb⟩, trivial, e1, e2⟩
    simp only [Reports] at hr
    refine ⟨hr.1, ?_⟩
    simp_all [canonNames]
  · obtain ⟨a, b, ha, hb, e1, e2, h⟩ := invgamma_object_mu_sigma mu sigma o hm hs
    refine Gives.imp h fun o' hr => to_law ⟨[a, b], ?_, ⟨by linarith, hb⟩, ha, e1, e2⟩
    simp only [Reports] at hr
    refine ⟨hr.1, ?_⟩
    simp_all [canonNames]

example : (0 : ℝ) < 0.3 ∧ (0 : ℝ) < 0.2 ∧ (0.3 : ℝ) < 1 ∧ (0.2 : ℝ) ^ 2 < 0.3 * (1 - 0.3) := by norm_num

/-- C106: under the density printed in the documentation of AsymmetricLaplace, where `b` is a rate, the fitted object has
the requested standard deviation for no other value than `√2`. -/
theorem asym_laplace_documented_law (m s : ℝ) (hs : 0 < s) (o : Obj) :
    Gives (fitMoments .asymmetricLaplace m s o) fun o' => ∃ b, Holds .asymmetricLaplace [1, m, b] o' ∧ 0 < b ∧
      (HasMoments (ofPdf (asymLaplaceDocPdf 1 m b)) m (s ^ 2) ↔ s ^ 2 = 2) := by
  have h2 : √2 ^ 2 = 2 := Real.sq_sqrt (by norm_num)
  have h2p : 0 < √2 := Real.sqrt_pos.mpr (by norm_num)
  refine fit_holds _ (by simp) (asymLaplaceMoments m s) _ _ _ rfl rfl _ fun o' ho => ?_
  have hb : 0 < s / 2 * √2 := by positivity
  refine ⟨s / 2 * √2, ho, hb, ?_⟩
  have hd := Law.asymmetricLaplaceDoc one_pos hb m
  rw [show m - (1 - 1 / 1) / (s / 2 * √2) = m by norm_num,
    show (1 + 1 ^ 4) / ((s / 2 * √2) ^ 2 * 1 ^ 2) = 4 / s ^ 2 by rw [mul_pow, h2]; field_simp; norm_num] at hd
  constructor
  · intro h
    obtain ⟨-, e⟩ := moments_unique hd h
    have hs2 : 0 < s ^ 2 := by positivity
    rw [div_eq_iff hs2.ne'] at e
    nlinarith
  · intro h
    rw [h] at hd ⊢
    convert hd using 1; norm_num

example : (0 : ℝ) < 1 ∧ (1 : ℝ) ^ 2 ≠ 2 := by norm_num

/-- C106: the documented variance of BetaScaled, `alpha beta / ((alpha + beta)² (alpha + beta + 1)) (upper - lower)`, is the
variance of the law only for an interval of length one. -/
theorem beta_scaled_documented_variance (a b l u : ℝ) (ha : 0 < a) (hb : 0 < b) (h : l < u) :
    HasMoments (ofPdf (betaScaledPdf a b l u)) (l + (u - l) * (a / (a + b))) (a * b / ((a + b) ^ 2 * (a + b + 1)) * (u - l)) ↔
      u - l = 1 := by
  have hm := moments_of_law .betaScaled [a, b, l, u] ⟨ha, hb, h⟩ trivial
  simp only [lawOf, tMean, tVar, betaMean, betaVar] at hm
  have hv : 0 < a * b / ((a + b) ^ 2 * (a + b + 1)) := by positivity
  have hd : 0 < u - l := by linarith
  constructor
  · intro hx
    obtain ⟨-, e⟩ := moments_unique hm hx
    have : (u - l - 1) * ((u - l) * (a * b / ((a + b) ^ 2 * (a + b + 1)))) = 0 := by linear_combination e
    rcases mul_eq_zero.mp this with h0 | h0
    · linarith
    · exact absurd h0 (by positivity)
  · intro e
    rw [e] at hm ⊢
    convert hm using 1; ring

example : (0 : ℝ) < 2 ∧ (0 : ℝ) < 5 ∧ (-1 : ℝ) < 3 := by norm_num

/-- C106: the documented variance of StudentT, `nu / (nu - 2)`, is the variance of the law only for `sigma = 1`. -/
theorem studentt_documented_variance (n m s : ℝ) (hn : 2 < n) (hs : 0 < s) :
    HasMoments (ofPdf (studentPdf n m s)) m (n / (n - 2)) ↔ s = 1 := by
  have hm := moments_of_law .studentT [n, m, s] ⟨by linarith, hs⟩ hn
  simp only [lawOf, tMean, tVar] at hm
  have h2 : 0 < n - 2 := by linarith
  constructor
  · intro hx
    obtain ⟨-, e⟩ := moments_unique hm hx
    have hp : 0 < n / (n - 2) := by apply div_pos <;> linarith
    have : (s ^ 2 - 1) * (n / (n - 2)) = 0 := by
      rw [sub_mul, one_mul, ← mul_div_assoc, e, sub_self]
    rcases mul_eq_zero.mp this with h0 | h0
    · nlinarith
    · exact absurd h0 hp.ne'
  · rintro rfl
    convert hm using 1; ring

example : (2 : ℝ) < 5 ∧ (0 : ℝ) < 3 := by norm_num

end Verif.Props
