import Verif.Model.MlFit
import Verif.Spec.MlDomain
import Mathlib.Probability.Distributions.Beta
import Mathlib.Tactic

set_option linter.unusedSimpArgs false

/-!
# C66: numerical maximum likelihood and the parametrisation of the object
-/

namespace Verif.Props
open Verif Verif.Param Verif.Spec

/-- a point inside a box -/
def InBox (b : Box) (x : List ℝ) : Prop :=
  x.length = b.length ∧ ∀ (i : ℕ) (h : i < x.length) (h' : i < b.length), b[i].1 ≤ (x[i] : EReal) ∧ (x[i] : EReal) ≤ b[i].2

/-- what the optimiser promises at least: a point within the bounds -/
def StaysInside (m : (List ℝ → Except Err ℝ) → List (Option ℝ) → Box → Except Err (List ℝ)) : Prop :=
  ∀ g s b x, m g s b = .ok x → InBox b x

/-- what the optimiser promises at best: a point within the bounds at which the objective is smallest -/
def FindsMinimum (m : (List ℝ → Except Err ℝ) → List (Option ℝ) → Box → Except Err (List ℝ)) : Prop :=
  ∀ g s b x, m g s b = .ok x → InBox b x ∧ ∀ y, InBox b y → ∀ v w, g x = .ok v → g y = .ok w → v ≤ w

/-- the class name of the families concerned -/
def mlName : Family → Option String
  | .asymmetricLaplace => some "AsymmetricLaplace"
  | .bernoulli => some "Bernoulli"
  | .beta => some "Beta"
  | .gamma => some "Gamma"
  | .inverseGamma => some "InverseGamma"
  | .halfStudentT => some "HalfStudentT"
  | .studentT => some "StudentT"
  | .skewNormal => some "SkewNormal"
  | .skewStudentT => some "SkewStudentT"
  | .negativeBinomial => some "NegativeBinomial"
  | .ziNegativeBinomial => some "ZeroInflatedNegativeBinomial"
  | .rice => some "Rice"
  | .wald => some "Wald"
  | _ => none

/-- the parameters of the first parametrisation, by name, as the documentation lists them -/
def mlParams : String → List String
  | "AsymmetricLaplace" => ["kappa", "mu", "b"]
  | "Bernoulli" => ["p"]
  | "Beta" | "Gamma" | "InverseGamma" => ["alpha", "beta"]
  | "HalfStudentT" | "Rice" => ["nu", "sigma"]
  | "StudentT" => ["nu", "mu", "sigma"]
  | "SkewNormal" => ["mu", "sigma", "alpha"]
  | "SkewStudentT" => ["mu", "sigma", "a", "b"]
  | "NegativeBinomial" => ["mu", "alpha"]
  | "ZeroInflatedNegativeBinomial" => ["psi", "mu", "alpha"]
  | "Wald" => ["mu", "lam"]
  | _ => []

private theorem inBox_nil (x : List ℝ) : InBox [] x ↔ x = [] := by
  unfold InBox
  constructor
  · rintro ⟨h, -⟩; simpa using h
  · rintro rfl; simp

private theorem inBox_cons (p : EReal × EReal) (b : Box) (x : List ℝ) :
    InBox (p :: b) x ↔ ∃ a y, x = a :: y ∧ (p.1 ≤ (a : EReal) ∧ (a : EReal) ≤ p.2) ∧ InBox b y := by
  unfold InBox
  constructor
  · rintro ⟨h, h2⟩
    cases x with
    | nil => simp at h
    | cons a y =>
      refine ⟨a, y, rfl, h2 0 (by simp) (by simp), by simpa using h, ?_⟩
      intro i hi hi'
      have := h2 (i + 1) (by simpa using hi) (by simpa using hi')
      simpa using this
  · rintro ⟨a, y, rfl, h1, h2, h3⟩
    refine ⟨by simp [h2], ?_⟩
    intro i hi hi'
    cases i with
    | zero => simpa using h1
    | succ i => simpa using h3 i (by simpa using hi) (by simpa using hi')

/-- unless the object is a Beta given by its mean or an AsymmetricLaplace given by `q`, the bounds are the domain -/
private theorem box_domain (f : Family) (n : String) (hf : mlName f = some n) (names : List String)
    (hb : f = .beta → names ≠ ["mu", "sigma"] ∧ names ≠ ["mu", "nu"])
    (hq : f = .asymmetricLaplace → names ≠ ["q", "mu", "b"]) (x : List ℝ) :
    InBox (paramsSupport f names) x ↔ MlDomain n x := by
  rcases x with _ | ⟨x1, _ | ⟨x2, _ | ⟨x3, _ | ⟨x4, _ | ⟨x5, t⟩⟩⟩⟩⟩ <;>
  cases f <;> simp only [mlName, reduceCtorEq, Option.some.injEq] at hf <;> subst hf <;>
    simp only [reduceCtorEq, IsEmpty.forall_iff, forall_const] at hb hq <;>
    simp [paramsSupport, hb, hq, inBox_cons, inBox_nil, MlDomain, -EReal.coe_sub, -EReal.coe_one, and_assoc]

/-- the object a successful update leaves behind holds the given values under the names of the documentation -/
private theorem update_holds (f : Family) (n : String) (hf : mlName f = some n) (x : List ℝ) (hx : MlDomain n x) (o : Obj) :
    ∃ o', update f x o = .ok o' ∧ o'.names = o.names ∧ o'.frozen = true ∧ (mlParams n).map o'.attr = x.map some := by
  rcases x with _ | ⟨x1, _ | ⟨x2, _ | ⟨x3, _ | ⟨x4, _ | ⟨x5, t⟩⟩⟩⟩⟩ <;>
  cases f <;> simp only [mlName, reduceCtorEq, Option.some.injEq] at hf <;> subst hf <;>
    simp only [MlDomain] at hx
  all_goals first
    | exact hx.elim
    | (refine ⟨_, rfl, ?_, ?_, ?_⟩ <;>
        simp only [asymLaplaceUpdate, bernoulliUpdate, betaUpdate, gammaUpdate, invGammaUpdate, halfStudentTUpdate,
          studentTUpdate, skewNormalUpdate, skewStudentTUpdate, nbUpdate, zinbUpdate, riceUpdate, waldUpdate, mlParams,
          List.map, apply_ite Obj.names, apply_ite Obj.attr, ite_self] <;>
        simp [Obj.setAll, Obj.set, Function.update])

private theorem attrs_eq (f : Family) (n : String) (hf : mlName f = some n) : densityAttrs f = mlParams n := by
  cases f <;> simp only [mlName, reduceCtorEq, Option.some.injEq] at hf <;> subst hf <;> rfl

private theorem negll_eq (f : Family) (n : String) (hf : mlName f = some n) (logpdf : List ℝ → ℝ → ℝ) (o : Obj)
    (sample x : List ℝ) (hx : MlDomain n x) : negll f logpdf o sample x = .ok (nll logpdf sample x) := by
  obtain ⟨o', h1, -, -, h2⟩ := update_holds f n hf x hx o
  have h3 : ((densityAttrs f).map fun k => (o'.attr k).getD 0) = x := by
    have : ((mlParams n).map o'.attr).map (fun v => v.getD 0) = x := by rw [h2]; simp
    rw [attrs_eq f n hf, ← this, List.map_map]; rfl
  unfold negll nll
  rw [h1]
  simp only [Except.ok_bind', Except.pure_eq]
  rw [h3]

/-- C66: unless the object is a Beta given by its mean or an AsymmetricLaplace given by `q`, an optimiser that finds the
minimum gives a frozen distribution that keeps its parametrisation and whose parameters are in the domain of the family
and at least as likely as any others in it, whatever the density is. -/
theorem ml_fit_optimal_partial (m : (List ℝ → Except Err ℝ) → List (Option ℝ) → Box → Except Err (List ℝ))
    (hm : FindsMinimum m) (f : Family) (n : String) (hf : mlName f = some n) (logpdf : List ℝ → ℝ → ℝ)
    (fitMoments : Obj → Except Err Obj) (hfit : ∀ o o', fitMoments o = .ok o' → o'.names = o.names) (o o' : Obj)
    (hb : f = .beta → o.names ≠ ["mu", "sigma"] ∧ o.names ≠ ["mu", "nu"])
    (hq : f = .asymmetricLaplace → o.names ≠ ["q", "mu", "b"]) (sample : List ℝ)
    (h : optimizeMl m f logpdf fitMoments o sample = .ok o') :
    o'.frozen = true ∧ o'.names = o.names ∧ ∃ x, MlDomain n x ∧ (mlParams n).map o'.attr = x.map some ∧
      ∀ y, MlDomain n y → nll logpdf sample x ≤ nll logpdf sample y := by
  unfold optimizeMl at h
  cases h1 : fitMoments o with
  | error e => rw [h1] at h; simp [Except.error_bind'] at h
  | ok o1 =>
    have hn := hfit _ _ h1
    rw [h1] at h
    simp only [Except.ok_bind'] at h
    rw [hn] at h
    cases h2 : m (negll f logpdf o1 sample) (o1.params.getD []) (paramsSupport f o.names) with
    | error e => rw [h2] at h; simp [Except.error_bind'] at h
    | ok x =>
      rw [h2] at h
      simp only [Except.ok_bind'] at h
      obtain ⟨h3, h4⟩ := hm _ _ _ _ h2
      have hx := (box_domain f n hf o.names hb hq x).1 h3
      obtain ⟨o2, h5, h6, h7, h8⟩ := update_holds f n hf x hx o1
      rw [h5] at h
      simp only [Except.ok.injEq] at h
      subst h
      refine ⟨h7, by rw [h6, hn], x, hx, h8, ?_⟩
      intro y hy
      exact h4 y ((box_domain f n hf o.names hb hq y).2 hy) _ _ (negll_eq f n hf logpdf o1 sample x hx)
        (negll_eq f n hf logpdf o1 sample y hy)

private theorem beta_box (m : (List ℝ → Except Err ℝ) → List (Option ℝ) → Box → Except Err (List ℝ))
    (hm : StaysInside m) (logpdf : List ℝ → ℝ → ℝ)
    (fitMoments : Obj → Except Err Obj) (hfit : ∀ o o', fitMoments o = .ok o' → o'.names = o.names) (o o' : Obj)
    (sample : List ℝ) (f : Family)
    (h : optimizeMl m f logpdf fitMoments o sample = .ok o') :
    ∃ o1 x, o1.names = o.names ∧ InBox (paramsSupport f o.names) x ∧ update f x o1 = .ok o' := by
  unfold optimizeMl at h
  cases h1 : fitMoments o with
  | error e => rw [h1] at h; simp [Except.error_bind'] at h
  | ok o1 =>
    have hn := hfit _ _ h1
    rw [h1] at h
    simp only [Except.ok_bind'] at h
    rw [hn] at h
    cases h2 : m (negll f logpdf o1 sample) (o1.params.getD []) (paramsSupport f o.names) with
    | error e => rw [h2] at h; simp [Except.error_bind'] at h
    | ok x =>
      rw [h2] at h
      simp only [Except.ok_bind'] at h
      exact ⟨o1, x, hn, hm _ _ _ _ h2, h⟩

private theorem eps_pos' : (0 : ℝ) < eps := by unfold eps; positivity

/-- C66, what fails: a Beta given by `mu` and `sigma`, or by `mu` and `nu`, is fitted with `alpha < 1` (and in the first
case also `beta < 1`) whatever the data and the density are. -/
theorem ml_beta_capped (m : (List ℝ → Except Err ℝ) → List (Option ℝ) → Box → Except Err (List ℝ))
    (hm : StaysInside m) (logpdf : List ℝ → ℝ → ℝ)
    (fitMoments : Obj → Except Err Obj) (hfit : ∀ o o', fitMoments o = .ok o' → o'.names = o.names) (o o' : Obj)
    (sample : List ℝ) (h : optimizeMl m .beta logpdf fitMoments o sample = .ok o')
    (hn : o.names = ["mu", "sigma"] ∨ o.names = ["mu", "nu"]) :
    ∃ a b, o'.attr "alpha" = some a ∧ o'.attr "beta" = some b ∧ 0 < a ∧ a < 1 ∧ 0 < b ∧
      (o.names = ["mu", "sigma"] → b < 1) := by
  obtain ⟨o1, x, h1, h2, h3⟩ := beta_box m hm logpdf fitMoments hfit o o' sample .beta h
  have he := eps_pos'
  rcases hn with hn | hn
  · rw [hn] at h2
    simp only [paramsSupport, if_true, inBox_cons, inBox_nil] at h2
    obtain ⟨a, _, rfl, ⟨h4, h5⟩, b, _, rfl, ⟨h6, h7⟩, rfl⟩ := h2
    simp only [EReal.coe_le_coe_iff] at h4 h5 h6 h7
    simp only [update, Except.ok.injEq] at h3
    subst h3
    refine ⟨a, b, ?_, ?_, by linarith, by linarith, by linarith, fun _ => by linarith⟩ <;>
    · simp only [betaUpdate, apply_ite Obj.attr, ite_self]
      simp [Obj.setAll, Obj.set, Function.update]
  · rw [hn] at h2
    simp only [paramsSupport, if_neg (by decide : ¬ ["mu", "nu"] = ["mu", "sigma"]), if_true, inBox_cons, inBox_nil] at h2
    obtain ⟨a, _, rfl, ⟨h4, h5⟩, b, _, rfl, ⟨h6, h7⟩, rfl⟩ := h2
    simp only [EReal.coe_le_coe_iff] at h4 h5 h6
    simp only [update, Except.ok.injEq] at h3
    subst h3
    refine ⟨a, b, ?_, ?_, by linarith, by linarith, by linarith, fun h => ?_⟩
    · simp only [betaUpdate, apply_ite Obj.attr, ite_self]
      simp [Obj.setAll, Obj.set, Function.update]
    · simp only [betaUpdate, apply_ite Obj.attr, ite_self]
      simp [Obj.setAll, Obj.set, Function.update]
    · rw [hn] at h; simp at h

/-- C66, what fails: an AsymmetricLaplace given by `q` is fitted with `q < 1 / 2` whatever the data and the density
are. -/
theorem ml_asymlaplace_capped (m : (List ℝ → Except Err ℝ) → List (Option ℝ) → Box → Except Err (List ℝ))
    (hm : StaysInside m) (logpdf : List ℝ → ℝ → ℝ)
    (fitMoments : Obj → Except Err Obj) (hfit : ∀ o o', fitMoments o = .ok o' → o'.names = o.names) (o o' : Obj)
    (sample : List ℝ) (h : optimizeMl m .asymmetricLaplace logpdf fitMoments o sample = .ok o')
    (hn : o.names = ["q", "mu", "b"]) :
    ∃ q mu b, o'.params = some [some q, some mu, some b] ∧ q < 1 / 2 := by
  obtain ⟨o1, x, h1, h2, h3⟩ := beta_box m hm logpdf fitMoments hfit o o' sample .asymmetricLaplace h
  have he := eps_pos'
  rw [hn] at h2
  simp only [paramsSupport, if_true, inBox_cons, inBox_nil] at h2
  obtain ⟨k, _, rfl, ⟨h4, h5⟩, mu, _, rfl, -, b, _, rfl, -, rfl⟩ := h2
  simp only [EReal.coe_le_coe_iff] at h4 h5
  simp only [update, Except.ok.injEq] at h3
  subst h3
  refine ⟨k ^ 2 / (1 + k ^ 2), mu, b, ?_, ?_⟩
  · simp [asymLaplaceUpdate, Obj.setAll, Obj.set, List.foldl, h1, hn, asymLaplaceToQ]
  · rw [div_lt_div_iff₀ (by positivity) (by norm_num)]
    nlinarith

open ProbabilityTheory in
/-- a Beta density with both parameters at most one is at most one in the middle -/
private theorem beta_half_le (a b : ℝ) (ha : 0 < a) (ha1 : a ≤ 1) (hb : 0 < b) (hb1 : b ≤ 1) :
    betaPDFReal a b (1 / 2) ≤ 1 := by
  have hB := beta_pos ha hb
  set c := betaPDFReal a b (1 / 2) with hc
  have hc0 : 0 < c := betaPDFReal_pos (by norm_num) (by norm_num) ha hb
  have hsum : ∀ x ∈ Set.Ioo (0 : ℝ) 1, 2 * c ≤ betaPDFReal a b x + betaPDFReal a b (1 - x) := by
    rintro x ⟨h0, h1⟩
    have p0 : 0 < betaPDFReal a b x := betaPDFReal_pos h0 h1 ha hb
    have p1 : 0 < betaPDFReal a b (1 - x) := betaPDFReal_pos (by linarith) (by linarith) ha hb
    have hprod : c ^ 2 ≤ betaPDFReal a b x * betaPDFReal a b (1 - x) := by
      have e1 : betaPDFReal a b x = 1 / beta a b * x ^ (a - 1) * (1 - x) ^ (b - 1) := by
        unfold betaPDFReal; rw [if_pos ⟨h0, h1⟩]
      have e2 : betaPDFReal a b (1 - x) = 1 / beta a b * (1 - x) ^ (a - 1) * x ^ (b - 1) := by
        unfold betaPDFReal; rw [if_pos ⟨by linarith, by linarith⟩, sub_sub_cancel]
      have e3 : c = 1 / beta a b * (1 / 2) ^ (a - 1) * (1 / 2) ^ (b - 1) := by
        rw [hc]; unfold betaPDFReal; rw [if_pos ⟨by norm_num, by norm_num⟩]; norm_num
      have h1x : 0 < 1 - x := by linarith
      have e4 : betaPDFReal a b x * betaPDFReal a b (1 - x) = (1 / beta a b) ^ 2 * (x * (1 - x)) ^ (a + b - 2) := by
        rw [e1, e2, show a + b - 2 = (a - 1) + (b - 1) by ring, Real.rpow_add (mul_pos h0 h1x),
          Real.mul_rpow h0.le h1x.le, Real.mul_rpow h0.le h1x.le]
        ring
      have e5 : c ^ 2 = (1 / beta a b) ^ 2 * (1 / 4) ^ (a + b - 2) := by
        rw [e3, show (1 / 4 : ℝ) = 1 / 2 * (1 / 2) by norm_num, show a + b - 2 = (a - 1) + (b - 1) by ring,
          Real.rpow_add (by norm_num), Real.mul_rpow (by norm_num) (by norm_num),
          Real.mul_rpow (by norm_num) (by norm_num)]
        ring
      rw [e4, e5]
      apply mul_le_mul_of_nonneg_left _ (by positivity)
      apply Real.rpow_le_rpow_of_nonpos (mul_pos h0 h1x) _ (by linarith)
      nlinarith [sq_nonneg (x - 1 / 2)]
    nlinarith [sq_nonneg (betaPDFReal a b x - betaPDFReal a b (1 - x))]
  have hint : ∫⁻ x, betaPDF a b x = 1 := lintegral_betaPDF_eq_one ha hb
  have hint' : ∫⁻ x, betaPDF a b (1 - x) = 1 := by
    rw [MeasureTheory.lintegral_sub_left_eq_self (fun x => betaPDF a b x) 1, hint]
  have hmeas : Measurable (betaPDF a b) := (measurable_betaPDFReal a b).ennreal_ofReal
  have htot : ∫⁻ x, (betaPDF a b x + betaPDF a b (1 - x)) = 2 := by
    rw [MeasureTheory.lintegral_add_left hmeas, hint, hint']; norm_num
  have hle : ENNReal.ofReal (2 * c) ≤ 2 := by
    calc ENNReal.ofReal (2 * c) = ∫⁻ _ in Set.Ioo (0 : ℝ) 1, ENNReal.ofReal (2 * c) := by
          rw [MeasureTheory.setLIntegral_const]; simp
      _ ≤ ∫⁻ x in Set.Ioo (0 : ℝ) 1, (betaPDF a b x + betaPDF a b (1 - x)) := by
          apply MeasureTheory.setLIntegral_mono' measurableSet_Ioo
          intro x hx
          unfold betaPDF
          rw [← ENNReal.ofReal_add (betaPDFReal_pos hx.1 hx.2 ha hb).le
            (betaPDFReal_pos (by linarith [hx.2]) (by linarith [hx.1]) ha hb).le]
          exact ENNReal.ofReal_le_ofReal (hsum x hx)
      _ ≤ ∫⁻ x, (betaPDF a b x + betaPDF a b (1 - x)) := MeasureTheory.setLIntegral_le_lintegral _ _
      _ = 2 := htot
  have : ENNReal.ofReal (2 * c) ≤ ENNReal.ofReal 2 := by simpa using hle
  rw [ENNReal.ofReal_le_ofReal_iff (by norm_num)] at this
  linarith

open ProbabilityTheory in
private theorem beta_two_two : betaPDFReal 2 2 (1 / 2) = 3 / 2 := by
  have h2 : Real.Gamma 2 = 1 := Real.Gamma_two
  have h4 : Real.Gamma 4 = 6 := by
    rw [show (4 : ℝ) = ((3 : ℕ) : ℝ) + 1 by norm_num, Real.Gamma_nat_eq_factorial]; norm_num [Nat.factorial]
  unfold betaPDFReal
  rw [if_pos ⟨by norm_num, by norm_num⟩]
  unfold beta
  norm_num [h2, h4]

/-- the documented log-density of the Beta distribution -/
noncomputable def betaLogpdf : List ℝ → ℝ → ℝ
  | [a, b], x => Real.log (ProbabilityTheory.betaPDFReal a b x)
  | _, _ => 0

/-- C66, what fails, concretely: the fit of a Beta given by `mu` and `sigma` to the observation 1/2 is worse than
Beta(2, 2), whatever the optimiser does within its bounds. -/
theorem ml_beta_suboptimal (m : (List ℝ → Except Err ℝ) → List (Option ℝ) → Box → Except Err (List ℝ))
    (hm : StaysInside m) (fitMoments : Obj → Except Err Obj)
    (hfit : ∀ o o', fitMoments o = .ok o' → o'.names = o.names) (o o' : Obj) (hn : o.names = ["mu", "sigma"])
    (h : optimizeMl m .beta betaLogpdf fitMoments o [1 / 2] = .ok o') :
    ∃ a b, o'.attr "alpha" = some a ∧ o'.attr "beta" = some b ∧ MlDomain "Beta" [2, 2] ∧
      nll betaLogpdf [1 / 2] [2, 2] < nll betaLogpdf [1 / 2] [a, b] := by
  obtain ⟨a, b, h1, h2, ha0, ha1, hb0, hb1⟩ := ml_beta_capped m hm _ fitMoments hfit o o' _ h (Or.inl hn)
  have he : eps ≤ 2 := by unfold eps; norm_num
  refine ⟨a, b, h1, h2, ⟨he, he⟩, ?_⟩
  have h3 := beta_half_le a b ha0 ha1.le hb0 (hb1 hn).le
  have h4 : 0 < ProbabilityTheory.betaPDFReal a b (1 / 2) :=
    ProbabilityTheory.betaPDFReal_pos (by norm_num) (by norm_num) ha0 hb0
  simp only [nll, betaLogpdf, List.map_cons, List.map_nil, List.sum_cons, List.sum_nil, add_zero, beta_two_two]
  have h5 := Real.log_nonpos h4.le h3
  have h6 : 0 < Real.log (3 / 2) := Real.log_pos (by norm_num)
  linarith

/-- an optimiser as promised, and an object it is run on -/
example : ∃ (m : (List ℝ → Except Err ℝ) → List (Option ℝ) → Box → Except Err (List ℝ)) (o o' : Obj), StaysInside m ∧
    o.names = ["mu", "sigma"] ∧ optimizeMl m .beta betaLogpdf .ok o [1 / 2] = .ok o' := by
  classical
  refine ⟨fun _ _ b => if h : ∃ x, InBox b x then .ok h.choose else .error .valueError,
    ⟨fun _ => none, ["mu", "sigma"], none, false⟩, ?_⟩
  have hin : ∃ x, InBox (paramsSupport .beta ["mu", "sigma"]) x := by
    refine ⟨[1 / 2, 1 / 2], ?_⟩
    simp only [paramsSupport, if_true, inBox_cons, inBox_nil]
    have : eps ≤ 1 / 2 := by unfold eps; norm_num
    refine ⟨1 / 2, [1 / 2], rfl, ⟨?_, ?_⟩, 1 / 2, [], rfl, ⟨?_, ?_⟩, rfl⟩ <;>
      · rw [EReal.coe_le_coe_iff]; linarith
  have hx := hin.choose_spec
  set x := hin.choose with hxd
  have hx' := hx
  simp only [paramsSupport, if_true, inBox_cons, inBox_nil] at hx'
  obtain ⟨a, _, hxe, -, b, _, rfl, -, rfl⟩ := hx'
  refine ⟨betaUpdate a b ⟨fun _ => none, ["mu", "sigma"], none, false⟩, ?_, rfl, ?_⟩
  · intro g s b x h
    beta_reduce at h
    split_ifs at h with hb
    simp only [Except.ok.injEq] at h
    rw [← h]; exact hb.choose_spec
  · unfold optimizeMl
    simp only [Except.ok_bind']
    rw [dif_pos hin, ← hxd, hxe]
    rfl

/-- an optimiser that finds the minimum of a constant density -/
example : ∃ (m : (List ℝ → Except Err ℝ) → List (Option ℝ) → Box → Except Err (List ℝ)) (o o' : Obj), FindsMinimum m ∧
    o.names = ["alpha", "beta"] ∧ optimizeMl m .gamma (fun _ _ => 0) .ok o [1, 2] = .ok o' := by
  classical
  refine ⟨fun g _ b => if h : ∃ x, InBox b x ∧ ∀ y, InBox b y → ∀ v w, g x = .ok v → g y = .ok w → v ≤ w
    then .ok h.choose else .error .valueError, ⟨fun _ => none, ["alpha", "beta"], none, false⟩, ?_⟩
  set o : Obj := ⟨fun _ => none, ["alpha", "beta"], none, false⟩ with ho
  have hin : ∃ x, InBox (paramsSupport .gamma ["alpha", "beta"]) x ∧ ∀ y, InBox (paramsSupport .gamma ["alpha", "beta"]) y →
      ∀ v w, negll .gamma (fun _ _ => 0) o [1, 2] x = .ok v → negll .gamma (fun _ _ => 0) o [1, 2] y = .ok w → v ≤ w := by
    refine ⟨[1, 1], ?_, ?_⟩
    · simp only [paramsSupport, inBox_cons, inBox_nil]
      have : eps ≤ 1 := by unfold eps; norm_num
      refine ⟨1, [1], rfl, ⟨?_, le_top⟩, 1, [], rfl, ⟨?_, le_top⟩, rfl⟩ <;>
        exact EReal.coe_le_coe_iff.2 this
    · intro y hy v w hv hw
      have hd : ∀ z, MlDomain "Gamma" z → negll .gamma (fun _ _ => 0) o [1, 2] z = .ok 0 := by
        intro z hz
        rw [negll_eq .gamma "Gamma" rfl _ _ _ _ hz]; simp [nll]
      have hz1 : MlDomain "Gamma" [1, 1] := by
        have : eps ≤ 1 := by unfold eps; norm_num
        exact ⟨this, this⟩
      have hz2 := (box_domain .gamma "Gamma" rfl ["alpha", "beta"] (by simp) (by simp) y).1 hy
      rw [hd _ hz1] at hv
      rw [hd _ hz2] at hw
      simp only [Except.ok.injEq] at hv hw
      rw [← hv, ← hw]
  have hx := hin.choose_spec
  set x := hin.choose with hxd
  have hz := (box_domain .gamma "Gamma" rfl ["alpha", "beta"] (by simp) (by simp) x).1 hx.1
  obtain ⟨o', h1, -⟩ := update_holds .gamma "Gamma" rfl x hz o
  refine ⟨o', ?_, rfl, ?_⟩
  · intro g s b x h
    beta_reduce at h
    split_ifs at h with hb
    simp only [Except.ok.injEq] at h
    rw [← h]; exact hb.choose_spec
  · unfold optimizeMl
    simp only [Except.ok_bind']
    rw [dif_pos hin, ← hxd]
    exact h1

end Verif.Props
