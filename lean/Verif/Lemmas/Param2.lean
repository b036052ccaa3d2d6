import Verif.Lemmas.Param

/-! Helper lemmas for C05/C06: outcome of each `_parametrization` once the guard has passed. -/

set_option linter.unusedSimpArgs false

namespace Verif.Param
open Verif Verif.Spec

@[simp] theorem Obj.setAll_names (o : Obj) (l) : (o.setAll l).names = o.names := by
  unfold Obj.setAll
  induction l generalizing o with
  | nil => rfl
  | cons a l ih => simp [ih]
@[simp] theorem Obj.setAll_params (o : Obj) (l) : (o.setAll l).params = o.params := by
  unfold Obj.setAll
  induction l generalizing o with
  | nil => rfl
  | cons a l ih => simp [ih]
@[simp] theorem Obj.setAll_frozen (o : Obj) (l) : (o.setAll l).frozen = o.frozen := by
  unfold Obj.setAll
  induction l generalizing o with
  | nil => rfl
  | cons a l ih => simp [ih]

@[simp] theorem betaUpdate_frozen (a b o) : (betaUpdate a b o).frozen = true := rfl
@[simp] theorem gammaUpdate_frozen (a b o) : (gammaUpdate a b o).frozen = true := rfl
@[simp] theorem invGammaUpdate_frozen (a b o) : (invGammaUpdate a b o).frozen = true := rfl
@[simp] theorem normalUpdate_frozen (a b o) : (normalUpdate a b o).frozen = true := rfl
@[simp] theorem halfNormalUpdate_frozen (a o) : (halfNormalUpdate a o).frozen = true := rfl
@[simp] theorem halfStudentTUpdate_frozen (a b o) : (halfStudentTUpdate a b o).frozen = true := rfl
@[simp] theorem studentTUpdate_frozen (a b c o) : (studentTUpdate a b c o).frozen = true := rfl
@[simp] theorem skewNormalUpdate_frozen (a b c o) : (skewNormalUpdate a b c o).frozen = true := rfl
@[simp] theorem skewStudentTUpdate_frozen (a b c d o) :
    (skewStudentTUpdate a b c d o).frozen = true := rfl
@[simp] theorem asymLaplaceUpdate_frozen (a b c o) : (asymLaplaceUpdate a b c o).frozen = true := rfl
@[simp] theorem bernoulliUpdate_frozen (a o) : (bernoulliUpdate a o).frozen = true := rfl
@[simp] theorem exponentialUpdate_frozen (a o) : (exponentialUpdate a o).frozen = true := rfl
@[simp] theorem nbUpdate_frozen (a b o) : (nbUpdate a b o).frozen = true := rfl
@[simp] theorem zinbUpdate_frozen (a b c o) : (zinbUpdate a b c o).frozen = true := rfl
@[simp] theorem riceUpdate_frozen (a b o) : (riceUpdate a b o).frozen = true := rfl
@[simp] theorem waldUpdate_frozen (a b o) : (waldUpdate a b o).frozen = true := rfl
@[simp] theorem betaScaledUpdate_frozen (a b c d o) : (betaScaledUpdate a b c d o).frozen = true := rfl

def Outcome (f : Family) (kw : Kw) (o : Obj) (r : Except Err Obj) : Prop :=
  (∀ e, r = .error e → e ≠ .valueError) ∧
  (∀ o', r = .ok o' → (o'.frozen = true ↔ o.frozen = true ∨ Complete f kw))

@[simp] theorem outcome_ok (f kw o o') : Outcome f kw o (.ok o') ↔
    (o'.frozen = true ↔ o.frozen = true ∨ Complete f kw) := by
  simp [Outcome]
@[simp] theorem outcome_error (f kw o e) : Outcome f kw o (.error e) ↔ e ≠ .valueError := by
  simp [Outcome]

theorem outcome_bind {α} (f kw o) (c : Except Err α) (g : α → Except Err Obj)
    (h1 : ∀ e, c = .error e → e ≠ .valueError) (h2 : ∀ a, Outcome f kw o (g a)) :
    Outcome f kw o (c >>= g) := by
  cases c with
  | error e => simpa using h1 e rfl
  | ok a => simpa using h2 a

theorem pyDiv_err (a b) : ∀ e, pyDiv a b = .error e → e ≠ .valueError := by
  intro e; unfold pyDiv; split <;> simp
  rintro rfl; simp
theorem pySqrt_err (a) : ∀ e, pySqrt a = .error e → e ≠ .valueError := by
  intro e; unfold pySqrt; split <;> simp
  rintro rfl; simp

theorem fromPrecision_err (a) : ∀ e, fromPrecision a = .error e → e ≠ .valueError := by
  intro e; unfold fromPrecision
  have := pySqrt_err a
  cases h : pySqrt a with
  | error e' => simpa using fun he => he ▸ this _ h
  | ok x => simpa using pyDiv_err 1 x e
theorem betaFromMuSigma_err (a b) : ∀ e, betaFromMuSigma a b = .error e → e ≠ .valueError := by
  intro e; unfold betaFromMuSigma
  have := pyDiv_err (a * (1 - a)) (b ^ 2)
  cases h : pyDiv (a * (1 - a)) (b ^ 2) with
  | error e' => simpa using fun he => he ▸ this _ h
  | ok x => simp
theorem gammaFromMuSigma_err (a b) : ∀ e, gammaFromMuSigma a b = .error e → e ≠ .valueError := by
  intro e; unfold gammaFromMuSigma pyDiv
  split <;> simp
  rintro rfl; simp
theorem invGammaFromMuSigma_err (a b) :
    ∀ e, invGammaFromMuSigma a b = .error e → e ≠ .valueError := by
  intro e; unfold invGammaFromMuSigma pyDiv
  split <;> simp
  rintro rfl; simp
theorem asymLaplaceFromQ_err (a) : ∀ e, asymLaplaceFromQ a = .error e → e ≠ .valueError := by
  intro e; unfold asymLaplaceFromQ
  have := pyDiv_err a (1 - a)
  cases h : pyDiv a (1 - a) with
  | error e' => simpa using fun he => he ▸ this _ h
  | ok x => simpa using pySqrt_err x e
theorem nbFromNP_err (a b) : ∀ e, nbFromNP a b = .error e → e ≠ .valueError := by
  intro e; unfold nbFromNP pyDiv
  split <;> simp
  rintro rfl; simp

local macro "oc" : tactic =>
  `(tactic| simp_all [guard, allNotNone, anyNotNone, Complete, ways, Way.plain])

theorem outcome_simple (s : Simple) (kw : Kw) (o : Obj) :
    Outcome (.simple s) kw o (parametrize (.simple s) kw o) := by
  have key : ∀ t : SimpleFam, ((simpleParam t kw o).frozen = true ↔
      o.frozen = true ∨ ∀ k ∈ t.args, (kw k).isSome) := by
    intro t
    unfold simpleParam simpleUpdate allNotNone
    by_cases h : ∀ k ∈ t.args, (kw k).isSome
    · have h' : ((t.args.map kw).all Option.isSome) = true := by
        simpa [List.all_map, List.all_eq_true] using h
      simp only [h', if_true, true_iff]
      exact Or.inr h
    · cases hp : t.preset <;> simp [List.all_map, List.all_eq_true, h]
  cases s <;> simp [parametrize, key, simpleFam, Complete, ways, Way.plain]

theorem outcome (f : Family) (kw : Kw) (o : Obj) (hg : guard f kw = false) (hr : Regular f kw) :
    Outcome f kw o (parametrize f kw o) := by
  cases f with
  | simple s => exact outcome_simple s kw o
  | asymmetricLaplace =>
    simp only [guard] at hg
    simp only [parametrize, asymLaplaceParam, hg]
    cases h2 : kw "q" with
    | none => cases h1 : kw "kappa" <;> cases h3 : kw "mu" <;> cases h4 : kw "b" <;> oc
    | some q =>
      simp only [Bool.false_eq_true, if_false]
      refine outcome_bind _ _ _ _ _ (asymLaplaceFromQ_err q) fun a => ?_
      cases h3 : kw "mu" <;> cases h4 : kw "b" <;> oc
  | bernoulli =>
    simp only [guard] at hg
    simp only [parametrize, bernoulliParam, hg]
    cases h2 : kw "logit_p" <;> cases h1 : kw "p" <;> oc
  | beta =>
    simp only [guard] at hg
    simp only [parametrize, betaParam, hg]
    cases h3 : kw "mu" with
    | none =>
      cases h1 : kw "alpha" <;> cases h2 : kw "beta" <;>
      cases h4 : kw "sigma" <;> cases h5 : kw "nu" <;> oc
    | some m =>
      cases h4 : kw "sigma" with
      | none =>
        cases h1 : kw "alpha" <;> cases h2 : kw "beta" <;> cases h5 : kw "nu" <;> oc
      | some s =>
        simp only [anyNotNone, List.any_cons, Option.isSome_some, Bool.true_or, if_true,
          Bool.false_eq_true, if_false]
        refine outcome_bind _ _ _ _ _ (betaFromMuSigma_err m s) fun a => ?_
        oc
  | betaScaled =>
    simp only [parametrize, betaScaledParam]
    cases h1 : kw "alpha" <;> cases h2 : kw "beta" <;> oc
  | exponential =>
    simp only [guard] at hg
    simp only [parametrize, exponentialParam, hg]
    cases h2 : kw "scale" with
    | none => cases h1 : kw "lam" <;> oc
    | some s =>
      simp only [Bool.false_eq_true, if_false]
      refine outcome_bind _ _ _ _ _ (pyDiv_err 1 s) fun a => ?_
      oc
  | gamma =>
    simp only [guard] at hg
    simp only [parametrize, gammaLikeParam, hg]
    cases h3 : kw "mu" with
    | none => cases h1 : kw "alpha" <;> cases h2 : kw "beta" <;> cases h4 : kw "sigma" <;> oc
    | some m =>
      cases h4 : kw "sigma" with
      | none => cases h1 : kw "alpha" <;> cases h2 : kw "beta" <;> oc
      | some s =>
        simp only [anyNotNone, List.any_cons, Option.isSome_some, Bool.true_or, if_true,
          Bool.false_eq_true, if_false]
        refine outcome_bind _ _ _ _ _ (gammaFromMuSigma_err m s) fun a => ?_
        oc
  | inverseGamma =>
    simp only [guard] at hg
    simp only [parametrize, gammaLikeParam, hg]
    cases h3 : kw "mu" with
    | none => cases h1 : kw "alpha" <;> cases h2 : kw "beta" <;> cases h4 : kw "sigma" <;> oc
    | some m =>
      cases h4 : kw "sigma" with
      | none => cases h1 : kw "alpha" <;> cases h2 : kw "beta" <;> oc
      | some s =>
        simp only [anyNotNone, List.any_cons, Option.isSome_some, Bool.true_or, if_true,
          Bool.false_eq_true, if_false]
        refine outcome_bind _ _ _ _ _ (invGammaFromMuSigma_err m s) fun a => ?_
        oc
  | wald =>
    simp only [guard] at hg
    simp only [parametrize, waldParam, hg]
    cases h3 : kw "phi" with
    | none => cases h1 : kw "mu" <;> cases h2 : kw "lam" <;> oc
    | some p =>
      cases h1 : kw "mu" with
      | some m =>
        have : (pyAnd (some m) (some p)).isSome = true := by unfold pyAnd; simp; split <;> simp
        cases h2 : kw "lam" <;> oc
      | none =>
        cases h2 : kw "lam" with
        | none => simp [pyAnd]; oc
        | some l =>
          have : (pyAnd (some l) (some p)).isSome = true := by unfold pyAnd; simp; split <;> simp
          have h0 : (pyAnd none (some p)).isSome = false := rfl
          simp only [this, h0, Bool.false_eq_true, if_false, if_true, waldFromLamPhi, bind_assoc]
          refine outcome_bind _ _ _ _ _ (pyDiv_err _ p) fun a => ?_
          oc
  | halfNormal =>
    simp only [guard] at hg
    simp only [parametrize, halfNormalParam, hg]
    cases h2 : kw "tau" with
    | none => cases h1 : kw "sigma" <;> oc
    | some q =>
      simp only [Bool.false_eq_true, if_false]
      refine outcome_bind _ _ _ _ _ (fromPrecision_err q) fun a => ?_
      oc
  | halfStudentT =>
    simp only [guard] at hg
    simp only [parametrize, halfStudentTParam, hg]
    cases h2 : kw "lam" with
    | none => cases h1 : kw "sigma" <;> cases h3 : kw "nu" <;> oc
    | some q =>
      simp only [Bool.false_eq_true, if_false]
      refine outcome_bind _ _ _ _ _ (fromPrecision_err q) fun a => ?_
      cases h3 : kw "nu" <;> oc
  | kumaraswamy =>
    have hr := hr.1 rfl
    simp only [parametrize, kumaraswamyParam]
    cases h1 : kw "a" with
    | none => simp [pyAnd, Complete, ways, Way.plain, h1]
    | some a =>
      have : a ≠ 0 := by rintro rfl; exact hr h1
      cases h2 : kw "b" <;> simp [pyAnd, kumaraswamyUpdate, Complete, ways, Way.plain, *]
  | logitNormal =>
    simp only [guard] at hg
    simp only [parametrize, normalParam, hg]
    cases h2 : kw "tau" with
    | none => cases h1 : kw "sigma" <;> cases h3 : kw "mu" <;> oc
    | some q =>
      simp only [Bool.false_eq_true, if_false]
      refine outcome_bind _ _ _ _ _ (fromPrecision_err q) fun a => ?_
      cases h3 : kw "mu" <;> oc
  | normal =>
    simp only [guard] at hg
    simp only [parametrize, normalParam, hg]
    cases h2 : kw "tau" with
    | none => cases h1 : kw "sigma" <;> cases h3 : kw "mu" <;> oc
    | some q =>
      simp only [Bool.false_eq_true, if_false]
      refine outcome_bind _ _ _ _ _ (fromPrecision_err q) fun a => ?_
      cases h3 : kw "mu" <;> oc
  | negativeBinomial =>
    simp only [guard] at hg
    simp only [parametrize, nbParam, hg]
    cases h3 : kw "p" with
    | none => cases h1 : kw "mu" <;> cases h2 : kw "alpha" <;> cases h4 : kw "n" <;> oc
    | some p =>
      cases h4 : kw "n" with
      | none => cases h1 : kw "mu" <;> cases h2 : kw "alpha" <;> oc
      | some n =>
        simp only [anyNotNone, List.any_cons, Option.isSome_some, Bool.true_or, if_true,
          Bool.false_eq_true, if_false]
        refine outcome_bind _ _ _ _ _ (nbFromNP_err n p) fun a => ?_
        oc
  | rice =>
    simp only [guard] at hg
    simp only [parametrize, riceParam, hg]
    cases h1 : kw "nu" <;> cases h2 : kw "b" <;> cases h3 : kw "sigma" <;> oc
  | skewNormal =>
    simp only [guard] at hg
    simp only [parametrize, skewNormalParam, hg]
    cases h2 : kw "tau" with
    | none => cases h1 : kw "sigma" <;> cases h3 : kw "mu" <;> cases h4 : kw "alpha" <;> oc
    | some q =>
      simp only [Bool.false_eq_true, if_false]
      refine outcome_bind _ _ _ _ _ (fromPrecision_err q) fun a => ?_
      cases h3 : kw "mu" <;> cases h4 : kw "alpha" <;> oc
  | skewStudentT =>
    simp only [guard] at hg
    simp only [parametrize, skewStudentTParam, hg]
    cases h2 : kw "lam" with
    | none =>
      cases h1 : kw "sigma" <;> cases h3 : kw "mu" <;> cases h4 : kw "a" <;> cases h5 : kw "b" <;> oc
    | some q =>
      simp only [Bool.false_eq_true, if_false]
      refine outcome_bind _ _ _ _ _ (fromPrecision_err q) fun a => ?_
      cases h3 : kw "mu" <;> cases h4 : kw "a" <;> cases h5 : kw "b" <;> oc
  | studentT =>
    simp only [guard] at hg
    simp only [parametrize, studentTParam, hg]
    cases h2 : kw "lam" with
    | none => cases h1 : kw "sigma" <;> cases h3 : kw "mu" <;> cases h4 : kw "nu" <;> oc
    | some q =>
      simp only [Bool.false_eq_true, if_false]
      refine outcome_bind _ _ _ _ _ (fromPrecision_err q) fun a => ?_
      cases h3 : kw "mu" <;> cases h4 : kw "nu" <;> oc
  | ziNegativeBinomial =>
    have hr := hr.2 rfl
    simp only [guard] at hg
    simp only [parametrize, zinbParam, hg]
    cases h3 : kw "p" with
    | none => cases h1 : kw "mu" <;> cases h2 : kw "alpha" <;> cases h4 : kw "n" <;> oc
    | some p =>
      cases h4 : kw "n" with
      | none => cases h1 : kw "mu" <;> cases h2 : kw "alpha" <;> oc
      | some n =>
        simp only [anyNotNone, List.any_cons, Option.isSome_some, Bool.true_or, if_true,
          Bool.false_eq_true, if_false]
        refine outcome_bind _ _ _ _ _ (nbFromNP_err n p) fun a => ?_
        oc


theorem fromPrecision_ok {p : ℝ} (h : 0 < p) : fromPrecision p = .ok (1 / Real.sqrt p) := by
  unfold fromPrecision
  simp [pySqrt_ok h.le, (Real.sqrt_pos.mpr h).ne']
theorem betaFromMuSigma_ok {m s : ℝ} (h : s ≠ 0) :
    betaFromMuSigma m s = .ok (m * (m * (1 - m) / s ^ 2 - 1), (1 - m) * (m * (1 - m) / s ^ 2 - 1)) := by
  unfold betaFromMuSigma
  simp [pyDiv_ok (pow_ne_zero 2 h)]
theorem gammaFromMuSigma_ok {m s : ℝ} (h : s ≠ 0) :
    gammaFromMuSigma m s = .ok (m ^ 2 / s ^ 2, m / s ^ 2) := by
  unfold gammaFromMuSigma
  simp [pyDiv_ok (pow_ne_zero 2 h)]
theorem invGammaFromMuSigma_ok {m s : ℝ} (h : s ≠ 0) :
    invGammaFromMuSigma m s = .ok (m ^ 2 / s ^ 2 + 2, m ^ 3 / s ^ 2 + m) := by
  unfold invGammaFromMuSigma
  simp [pyDiv_ok (pow_ne_zero 2 h)]
theorem asymLaplaceFromQ_ok {q : ℝ} (h0 : 0 < q) (h1 : q < 1) :
    asymLaplaceFromQ q = .ok (Real.sqrt (q / (1 - q))) := by
  unfold asymLaplaceFromQ
  have : (1 - q) ≠ 0 := by linarith
  have h2 : 0 ≤ q / (1 - q) := div_nonneg h0.le (by linarith)
  simp [pyDiv_ok this, pySqrt_ok h2]
theorem nbFromNP_ok {n p : ℝ} (h : p ≠ 0) : nbFromNP n p = .ok (n * (1 / p - 1), n) := by
  unfold nbFromNP
  simp [pyDiv_ok h]

/-- inside the documented ranges the only possible error is the parametrisation conflict -/
theorem inRange_ok (f : Family) (kw : Kw) (o : Obj) (hg : guard f kw = false)
    (hr : InRange f kw) : ∃ o', parametrize f kw o = .ok o' := by
  have key : ∀ (α : Type) (c : Except Err α) (g : α → Except Err Obj) (a : α), c = .ok a →
      (∃ o', g a = .ok o') → ∃ o', (c >>= g) = .ok o' := by
    rintro α c g a rfl h; simpa using h
  cases f with
  | simple s => exact ⟨_, rfl⟩
  | asymmetricLaplace =>
    simp only [guard] at hg
    simp only [parametrize, asymLaplaceParam, hg]
    cases h2 : kw "q" with
    | none => cases h1 : kw "kappa" <;> cases h3 : kw "mu" <;> cases h4 : kw "b" <;> simp
    | some q =>
      have hq := hr _ _ h2
      simp only [Bool.false_eq_true, if_false, asymLaplaceFromQ_ok hq.1 hq.2]
      cases h3 : kw "mu" <;> cases h4 : kw "b" <;> simp
  | bernoulli =>
    simp only [guard] at hg
    simp only [parametrize, bernoulliParam, hg]
    cases h2 : kw "logit_p" <;> cases h1 : kw "p" <;> simp
  | beta =>
    simp only [guard] at hg
    simp only [parametrize, betaParam, hg]
    cases h4 : kw "sigma" with
    | none =>
      cases h3 : kw "mu" <;> cases h1 : kw "alpha" <;> cases h2 : kw "beta" <;>
        cases h5 : kw "nu" <;> simp [anyNotNone]
    | some s =>
      have hs : (0 : ℝ) < s := hr _ _ h4
      cases h3 : kw "mu" <;> cases h1 : kw "alpha" <;> cases h2 : kw "beta" <;>
        simp [anyNotNone, betaFromMuSigma_ok hs.ne']
  | betaScaled =>
    simp only [parametrize, betaScaledParam]
    cases h1 : kw "alpha" <;> cases h2 : kw "beta" <;> simp
  | exponential =>
    simp only [guard] at hg
    simp only [parametrize, exponentialParam, hg]
    cases h2 : kw "scale" with
    | none => cases h1 : kw "lam" <;> simp
    | some s =>
      have hs : (0 : ℝ) < s := hr _ _ h2
      simp [pyDiv_ok hs.ne']
  | gamma =>
    simp only [guard] at hg
    simp only [parametrize, gammaLikeParam, hg]
    cases h4 : kw "sigma" with
    | none =>
      cases h3 : kw "mu" <;> cases h1 : kw "alpha" <;> cases h2 : kw "beta" <;> simp [anyNotNone]
    | some s =>
      have hs : (0 : ℝ) < s := hr _ _ h4
      cases h3 : kw "mu" <;> cases h1 : kw "alpha" <;> cases h2 : kw "beta" <;>
        simp [anyNotNone, gammaFromMuSigma_ok hs.ne']
  | inverseGamma =>
    simp only [guard] at hg
    simp only [parametrize, gammaLikeParam, hg]
    cases h4 : kw "sigma" with
    | none =>
      cases h3 : kw "mu" <;> cases h1 : kw "alpha" <;> cases h2 : kw "beta" <;> simp [anyNotNone]
    | some s =>
      have hs : (0 : ℝ) < s := hr _ _ h4
      cases h3 : kw "mu" <;> cases h1 : kw "alpha" <;> cases h2 : kw "beta" <;>
        simp [anyNotNone, invGammaFromMuSigma_ok hs.ne']
  | wald =>
    simp only [guard] at hg
    simp only [parametrize, waldParam, hg]
    cases h3 : kw "phi" with
    | none => cases h1 : kw "mu" <;> cases h2 : kw "lam" <;> simp
    | some p =>
      have hp : (0 : ℝ) < p := hr _ _ h3
      have h0 : (pyAnd none (some p)).isSome = false := rfl
      have h9 : ∀ m, (pyAnd (some m) (some p)).isSome = true := by
        intro m; unfold pyAnd; simp; split <;> simp
      cases h1 : kw "mu" <;> cases h2 : kw "lam" <;>
        simp [h0, h9, waldFromLamPhi, pyDiv_ok hp.ne']
  | halfNormal =>
    simp only [guard] at hg
    simp only [parametrize, halfNormalParam, hg]
    cases h2 : kw "tau" with
    | none => cases h1 : kw "sigma" <;> simp
    | some q =>
      have hq : (0 : ℝ) < q := hr _ _ h2
      simp [fromPrecision_ok hq]
  | halfStudentT =>
    simp only [guard] at hg
    simp only [parametrize, halfStudentTParam, hg]
    cases h2 : kw "lam" with
    | none => cases h1 : kw "sigma" <;> cases h3 : kw "nu" <;> simp
    | some q =>
      have hq : (0 : ℝ) < q := hr _ _ h2
      cases h3 : kw "nu" <;> simp [fromPrecision_ok hq]
  | kumaraswamy =>
    simp only [parametrize, kumaraswamyParam]
    split <;> simp
  | logitNormal =>
    simp only [guard] at hg
    simp only [parametrize, normalParam, hg]
    cases h2 : kw "tau" with
    | none => cases h1 : kw "sigma" <;> cases h3 : kw "mu" <;> simp
    | some q =>
      have hq : (0 : ℝ) < q := hr _ _ h2
      cases h3 : kw "mu" <;> simp [fromPrecision_ok hq]
  | normal =>
    simp only [guard] at hg
    simp only [parametrize, normalParam, hg]
    cases h2 : kw "tau" with
    | none => cases h1 : kw "sigma" <;> cases h3 : kw "mu" <;> simp
    | some q =>
      have hq : (0 : ℝ) < q := hr _ _ h2
      cases h3 : kw "mu" <;> simp [fromPrecision_ok hq]
  | negativeBinomial =>
    simp only [guard] at hg
    simp only [parametrize, nbParam, hg]
    cases h3 : kw "p" with
    | none =>
      cases h1 : kw "mu" <;> cases h2 : kw "alpha" <;> cases h4 : kw "n" <;> simp [anyNotNone]
    | some p =>
      have hp : (0 : ℝ) < p := (hr _ _ h3).1
      cases h1 : kw "mu" <;> cases h2 : kw "alpha" <;> cases h4 : kw "n" <;>
        simp [anyNotNone, nbFromNP_ok hp.ne']
  | rice =>
    simp only [guard] at hg
    simp only [parametrize, riceParam, hg]
    cases h1 : kw "nu" <;> cases h2 : kw "b" <;> cases h3 : kw "sigma" <;> simp
  | skewNormal =>
    simp only [guard] at hg
    simp only [parametrize, skewNormalParam, hg]
    cases h2 : kw "tau" with
    | none => cases h1 : kw "sigma" <;> cases h3 : kw "mu" <;> cases h4 : kw "alpha" <;> simp
    | some q =>
      have hq : (0 : ℝ) < q := hr _ _ h2
      cases h3 : kw "mu" <;> cases h4 : kw "alpha" <;> simp [fromPrecision_ok hq]
  | skewStudentT =>
    simp only [guard] at hg
    simp only [parametrize, skewStudentTParam, hg]
    cases h2 : kw "lam" with
    | none =>
      cases h1 : kw "sigma" <;> cases h3 : kw "mu" <;> cases h4 : kw "a" <;> cases h5 : kw "b" <;>
        simp
    | some q =>
      have hq : (0 : ℝ) < q := hr _ _ h2
      cases h3 : kw "mu" <;> cases h4 : kw "a" <;> cases h5 : kw "b" <;> simp [fromPrecision_ok hq]
  | studentT =>
    simp only [guard] at hg
    simp only [parametrize, studentTParam, hg]
    cases h2 : kw "lam" with
    | none => cases h1 : kw "sigma" <;> cases h3 : kw "mu" <;> cases h4 : kw "nu" <;> simp
    | some q =>
      have hq : (0 : ℝ) < q := hr _ _ h2
      cases h3 : kw "mu" <;> cases h4 : kw "nu" <;> simp [fromPrecision_ok hq]
  | ziNegativeBinomial =>
    simp only [guard] at hg
    simp only [parametrize, zinbParam, hg]
    cases h3 : kw "p" with
    | none =>
      cases h1 : kw "mu" <;> cases h2 : kw "alpha" <;> cases h4 : kw "n" <;> simp [anyNotNone]
    | some p =>
      have hp : (0 : ℝ) < p := (hr _ _ h3).1
      cases h1 : kw "mu" <;> cases h2 : kw "alpha" <;> cases h4 : kw "n" <;>
        simp [anyNotNone, nbFromNP_ok hp.ne']

end Verif.Param
