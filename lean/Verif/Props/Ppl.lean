import Verif.Model.Ppl
import Mathlib.Tactic

/-!
# C43, C44, C45, C46: conversion, refits, restoration
-/

set_option linter.unusedSimpArgs false

namespace Verif.Props
open Verif Verif.Ppl

/-! ## C44 -/

section Refit
variable {S : Type} (fits : ℕ → S → Bool) (pick : List ℕ → S → ℕ)

private theorem fitAll_other (s : S) (h : Heap S) (cands : List ℕ) (d : ℕ) (hd : d ∉ cands) :
    fitAll fits s h cands d = h d := by
  induction cands generalizing h with
  | nil => rfl
  | cons c cs ih =>
    simp only [List.mem_cons, not_or] at hd
    simp only [fitAll, List.foldl_cons] at ih ⊢
    rw [ih _ hd.2]
    split_ifs
    · rw [Function.update_of_ne hd.1]
    · rfl

private theorem fitAll_mem (s : S) (h : Heap S) (cands : List ℕ) (d : ℕ) (hd : d ∈ cands)
    (hf : fits d s = true) : fitAll fits s h cands d = some s := by
  induction cands generalizing h with
  | nil => simp at hd
  | cons c cs ih =>
    by_cases hc : d ∈ cs
    · exact ih _ hc
    · simp only [List.mem_cons, hc, or_false] at hd
      subst hd
      show fitAll fits s (if fits d s then Function.update h d (some s) else h) cs d = some s
      rw [fitAll_other fits s _ cs d hc, if_pos hf]; simp

private theorem backFit_other (h : Heap S) (vars : List (String × List ℕ × S)) (d : ℕ)
    (hd : ∀ v ∈ vars, d ∉ v.2.1) : (backFit fits pick h vars).2 d = h d := by
  induction vars generalizing h with
  | nil => rfl
  | cons v vs ih =>
    obtain ⟨n, cands, s⟩ := v
    simp only [backFit]
    rw [ih _ fun v hv => hd v (List.mem_cons_of_mem _ hv)]
    exact fitAll_other fits s h cands d (hd (n, cands, s) List.mem_cons_self)

/-- Partial: when no two variables share a candidate object (no alternatives, fresh alternatives, or
per-variable lists without common objects), every variable reports a distribution fitted to its own
sample - provided the chosen candidate could be fitted to it at all. -/
theorem refit_own_sample_partial (h : Heap S) (vars : List (String × List ℕ × S))
    (hpick : ∀ v ∈ vars, pick v.2.1 v.2.2 ∈ v.2.1 ∧ fits (pick v.2.1 v.2.2) v.2.2 = true)
    (hdisj : vars.Pairwise fun v w => ∀ d ∈ v.2.1, d ∉ w.2.1) :
    List.Forall₂ (fun (v : String × List ℕ × S) (r : String × ℕ) => r.1 = v.1 ∧ r.2 ∈ v.2.1 ∧
      (backFit fits pick h vars).2 r.2 = some v.2.2) vars (backFit fits pick h vars).1 := by
  induction vars generalizing h with
  | nil => exact .nil
  | cons v vs ih =>
    obtain ⟨n, cands, s⟩ := v
    obtain ⟨h1, h2⟩ := List.pairwise_cons.1 hdisj
    have hp := hpick _ List.mem_cons_self
    simp only [backFit]
    refine .cons ⟨rfl, hp.1, ?_⟩ (ih _ (fun v hv => hpick v (by simp [hv])) h2)
    rw [backFit_other fits pick _ vs _ fun v hv => h1 v hv _ hp.1]
    exact fitAll_mem fits s h cands _ hp.1 hp.2

/-- two variables, one alternative each -/
example : List.Forall₂ (fun (v : String × List ℕ × Bool) (r : String × ℕ) => r.1 = v.1 ∧ r.2 ∈ v.2.1 ∧
    (backFit (fun _ _ => true) (fun l _ => l.getD 1 0) (fun _ => none)
      [("a", [0, 2], true), ("b", [1, 3], false)]).2 r.2 = some v.2.2)
    [("a", [0, 2], true), ("b", [1, 3], false)]
    (backFit (fun _ _ => true) (fun l _ => l.getD 1 0) (fun _ => none)
      [("a", [0, 2], true), ("b", [1, 3], false)]).1 :=
  refit_own_sample_partial _ _ _ _ (by simp) (by simp)

/-- With a list of alternatives shared by all variables (`new_families` a list), every variable that
chooses one of the alternatives reports the fit to the **last** variable's sample. -/
theorem refit_shared_last (h : Heap S) (vars : List (String × ℕ × S)) (last : String × ℕ × S)
    (families : List ℕ) (d : ℕ) (hd : d ∈ families) (hf : fits d last.2.2 = true) :
    (backFit fits pick h (sharedCandidates (vars ++ [last]) families)).2 d = some last.2.2 := by
  induction vars generalizing h with
  | nil =>
    obtain ⟨n, own, s⟩ := last
    simp only [List.nil_append, sharedCandidates, List.map_cons, List.map_nil, backFit]
    exact fitAll_mem fits s h _ d (by simp [hd]) hf
  | cons v vs ih =>
    obtain ⟨n, own, s⟩ := v
    simp only [List.cons_append, sharedCandidates, List.map_cons, backFit]
    exact ih _

/-- negation: two variables with different samples, both choosing the shared alternative; the first one
reports the fit to the second one's sample -/
theorem refit_shared_wrong :
    (backFit (fun _ _ => true) (fun l _ => l.getD 1 0) (fun _ => none)
      (sharedCandidates [("a", 0, true), ("b", 1, false)] [2])).1 = [("a", 2), ("b", 2)] ∧
    (backFit (fun _ _ => true) (fun l _ => l.getD 1 0) (fun _ => none)
      (sharedCandidates [("a", 0, true), ("b", 1, false)] [2])).2 2 = some false := by
  constructor
  · simp [backFit, sharedCandidates]
  · exact refit_shared_last (fun _ _ => true) _ _ [("a", 0, true)] ("b", 1, false) [2] 2 (by simp) rfl

end Refit

/-! ## C45 -/

theorem runSteps_ok_iff (l : List Step) : runSteps l = .ok () ↔ ∀ s ∈ l, s = none := by
  induction l with
  | nil => simp [runSteps]
  | cons x xs ih => cases x <;> simp [runSteps, ih]

/-- Partial: the binding is the original one whenever the procedure returns, and whenever the exception
comes from a step before the rebinding or after the restoration.  Missing: exceptions in between. -/
theorem ppe_restores_partial {V : Type} (fresh original : V) (before inside after : List Step)
    (h : (ppe fresh original before inside after).1 = .ok () ∨ runSteps before ≠ .ok () ∨
      runSteps inside = .ok ()) : (ppe fresh original before inside after).2 = original := by
  unfold ppe at h ⊢
  cases hb : runSteps before with
  | error e => rfl
  | ok u =>
    cases hi : runSteps inside with
    | error e => simp [hb, hi] at h
    | ok u => rfl

example : (ppe "fresh" "data" [none] [none, none] [some .valueError]).2 = "data" := rfl

/-- negation: an exception while compiling or optimising leaves the fresh symbol in the user's model -/
theorem ppe_leaks {V : Type} (fresh original : V) (before inside after : List Step)
    (hb : runSteps before = .ok ()) (e : Err) (hi : runSteps inside = .error e) :
    ppe fresh original before inside after = (.error e, fresh) := by
  simp [ppe, hb, hi]

example : ppe "fresh" "data" [none] [none, some .runtimeError] [] = (.error .runtimeError, "fresh") :=
  rfl

/-! ## C46 -/

/-- Partial: the effective level is the same after the block, however it is left and whatever it did to
the logger's own level; the own level is the old one if it had been set. -/
theorem log_level_restored_partial (own : ℕ) (ancestors : List ℕ)
    (body : List ℕ → List ℕ × Except Err Unit)
    (hbody : ∃ l, (body ((own :: ancestors).set 0 40)).1 = l :: ancestors) :
    effectiveLevel (disableLogs (own :: ancestors) body).1 = effectiveLevel (own :: ancestors) ∧
    (own ≠ 0 → (disableLogs (own :: ancestors) body).1 = own :: ancestors) ∧
    (disableLogs (own :: ancestors) body).2 = (body (40 :: ancestors)).2 := by
  obtain ⟨l, hl⟩ := hbody
  have key : (disableLogs (own :: ancestors) body).1 =
      effectiveLevel (own :: ancestors) :: ancestors := by
    simp only [List.set_cons_zero] at hl
    simp only [disableLogs, hl, List.set_cons_zero]
  rw [key]
  refine ⟨?_, ?_, rfl⟩
  · by_cases h : effectiveLevel (own :: ancestors) = 0
    · have h' : own = 0 ∧ effectiveLevel ancestors = 0 := by
        by_cases ho : own = 0
        · exact ⟨ho, by simpa [effectiveLevel, ho] using h⟩
        · simp [effectiveLevel, ho] at h
      rw [h]; simp [effectiveLevel, h'.1, h'.2]
    · generalize effectiveLevel (own :: ancestors) = x at h ⊢
      simp [effectiveLevel, h]
  · intro h
    simp [effectiveLevel, h]

/-- a block that raises; the logger had its own level -/
example : disableLogs [20, 30] (fun l => (l, .error .runtimeError)) = ([20, 30], .error .runtimeError) :=
  rfl

/-- negation: a logger that inherited its level no longer inherits it afterwards -/
theorem log_level_detached (ancestors : List ℕ) (h : effectiveLevel ancestors ≠ 0) :
    (disableLogs (0 :: ancestors) fun l => (l, .ok ())).1 = effectiveLevel ancestors :: ancestors ∧
    (disableLogs (0 :: ancestors) fun l => (l, .ok ())).1 ≠ 0 :: ancestors := by
  simp only [disableLogs, List.set_cons_zero]
  refine ⟨by simp [effectiveLevel], ?_⟩
  simp [effectiveLevel, h]

/-- so a later change of the ancestor's level is no longer followed -/
example : effectiveLevel [0, 10] = 10 ∧
    effectiveLevel (((disableLogs [0, 30] fun l => (l, .ok ())).1).set 1 10) = 30 := by
  decide

/-! ## C43: the parametrisation of the PyMC nodes

`pmFamily params` is what PyMC stores for the PreliZ parameters (PyMC is not part of the model;
these are its documented conventions).  NaN stands for a missing parameter and propagates through
arithmetic. -/

/-- NaN-propagating arithmetic -/
noncomputable def ndiv (a b : Option ℝ) : Option ℝ := do return (← a) / (← b)
noncomputable def nsub (a b : Option ℝ) : Option ℝ := do return (← a) - (← b)
noncomputable def nadd (a b : Option ℝ) : Option ℝ := do return (← a) + (← b)

/-- parameters of the node PyMC builds for each family whose node differs from PreliZ's parameters -/
noncomputable def pmAsymmetricLaplace (mu b kappa : Option ℝ) : List (Option ℝ) := [b, kappa, mu]
noncomputable def pmExponential (lam : Option ℝ) : List (Option ℝ) := [ndiv (some 1) lam]
noncomputable def pmGamma (alpha beta : Option ℝ) : List (Option ℝ) := [alpha, ndiv (some 1) beta]
noncomputable def pmRice (nu sigma : Option ℝ) : List (Option ℝ) := [ndiv nu sigma, sigma]
noncomputable def pmSkewStudentT (mu sigma a b : Option ℝ) : List (Option ℝ) := [a, b, mu, sigma]
noncomputable def pmWald (mu lam : Option ℝ) : List (Option ℝ) := [mu, lam, some 0]
noncomputable def pmBetaBinomial (alpha beta n : Option ℝ) : List (Option ℝ) := [n, alpha, beta]
noncomputable def pmNegativeBinomial (mu alpha : Option ℝ) : List (Option ℝ) :=
  [alpha, ndiv alpha (nadd mu alpha)]
noncomputable def pmHyperGeometric (bigN k n : Option ℝ) : List (Option ℝ) := [k, nsub bigN k, n]

/-- Conversion inverts PyMC's parametrisation for every admissible parameter. -/
theorem from_pymc_roundtrip :
    (∀ mu b kappa : ℝ, reparametrize "AsymmetricLaplace"
      (pmAsymmetricLaplace (some mu) (some b) (some kappa)) =
      .ok (.named [("mu", some mu), ("b", some b), ("kappa", some kappa)])) ∧
    (∀ lam : ℝ, 0 < lam → reparametrize "Exponential" (pmExponential (some lam)) =
      .ok (.positional [some lam])) ∧
    (∀ alpha beta : ℝ, 0 < beta → reparametrize "Gamma" (pmGamma (some alpha) (some beta)) =
      .ok (.named [("alpha", some alpha), ("beta", some beta)])) ∧
    (∀ nu sigma : ℝ, 0 < sigma → reparametrize "Rice" (pmRice (some nu) (some sigma)) =
      .ok (.named [("nu", some nu), ("sigma", some sigma)])) ∧
    (∀ mu sigma a b : ℝ, reparametrize "SkewStudentT"
      (pmSkewStudentT (some mu) (some sigma) (some a) (some b)) =
      .ok (.named [("mu", some mu), ("sigma", some sigma), ("a", some a), ("b", some b)])) ∧
    (∀ mu lam : ℝ, reparametrize "Wald" (pmWald (some mu) (some lam)) =
      .ok (.named [("mu", some mu), ("lam", some lam)])) ∧
    (∀ alpha beta n : ℝ, reparametrize "BetaBinomial"
      (pmBetaBinomial (some alpha) (some beta) (some n)) =
      .ok (.named [("alpha", some alpha), ("beta", some beta), ("n", some n)])) ∧
    (∀ mu alpha : ℝ, 0 ≤ mu → 0 < alpha → reparametrize "NegativeBinomial"
      (pmNegativeBinomial (some mu) (some alpha)) =
      .ok (.named [("mu", some mu), ("alpha", some alpha)])) ∧
    (∀ bigN k n : ℝ, reparametrize "HyperGeometric"
      (pmHyperGeometric (some bigN) (some k) (some n)) =
      .ok (.named [("N", some bigN), ("k", some k), ("n", some n)])) ∧
    (∀ (family : String) (p : List (Option ℝ)), family ∉ ["AsymmetricLaplace", "Exponential", "Gamma",
      "Rice", "SkewStudentT", "Wald", "BetaBinomial", "NegativeBinomial", "HyperGeometric"] →
      reparametrize family p = .ok (.positional p)) := by
  refine ⟨?_, ?_, ?_, ?_, ?_, ?_, ?_, ?_, ?_, ?_⟩
  · intro mu b kappa; simp [reparametrize, pmAsymmetricLaplace, pmExponential, pmGamma, pmRice,
      pmSkewStudentT, pmWald, pmBetaBinomial, pmNegativeBinomial, pmHyperGeometric]
  · intro lam h
    simp [reparametrize, pmAsymmetricLaplace, pmExponential, pmGamma, pmRice,
      pmSkewStudentT, pmWald, pmBetaBinomial, pmNegativeBinomial, pmHyperGeometric, ndiv, invOpt, h.ne']
  · intro alpha beta h
    simp [reparametrize, pmAsymmetricLaplace, pmExponential, pmGamma, pmRice,
      pmSkewStudentT, pmWald, pmBetaBinomial, pmNegativeBinomial, pmHyperGeometric, ndiv, invOpt, h.ne']
  · intro nu sigma h
    have : nu / sigma * sigma = nu := by field_simp
    simp [reparametrize, pmAsymmetricLaplace, pmExponential, pmGamma, pmRice,
      pmSkewStudentT, pmWald, pmBetaBinomial, pmNegativeBinomial, pmHyperGeometric, ndiv, this]
  · intro mu sigma a b; simp [reparametrize, pmAsymmetricLaplace, pmExponential, pmGamma, pmRice,
      pmSkewStudentT, pmWald, pmBetaBinomial, pmNegativeBinomial, pmHyperGeometric]
  · intro mu lam; simp [reparametrize, pmAsymmetricLaplace, pmExponential, pmGamma, pmRice,
      pmSkewStudentT, pmWald, pmBetaBinomial, pmNegativeBinomial, pmHyperGeometric]
  · intro alpha beta n; simp [reparametrize, pmAsymmetricLaplace, pmExponential, pmGamma, pmRice,
      pmSkewStudentT, pmWald, pmBetaBinomial, pmNegativeBinomial, pmHyperGeometric]
  · intro mu alpha hm ha
    have h1 : mu + alpha ≠ 0 := by linarith
    have h2 : alpha / (mu + alpha) ≠ 0 := div_ne_zero ha.ne' h1
    have h3 : alpha * (1 - alpha / (mu + alpha)) / (alpha / (mu + alpha)) = mu := by field_simp; ring
    simp only [reparametrize, pmNegativeBinomial, ndiv, nadd]
    simp [h2, h3, h1, ha.ne']
  · intro bigN k n
    simp [reparametrize, pmAsymmetricLaplace, pmExponential, pmGamma, pmRice,
      pmSkewStudentT, pmWald, pmBetaBinomial, pmNegativeBinomial, pmHyperGeometric, nsub]
  · intro family p h
    simp only [List.mem_cons, List.not_mem_nil, or_false, not_or] at h
    obtain ⟨h1, h2, h3, h4, h5, h6, h7, h8, h9⟩ := h
    rw [reparametrize.eq_def, if_neg h1, if_neg h2, if_neg h3, if_neg h4, if_neg h5, if_neg h6, if_neg h7,
      if_neg h8, if_neg h9]

/-- The node of a family: the generator and the size come first (whatever they evaluate to), then for
HalfNormal the location 0, then the parameters; LogitNormal has no size input, or one that is `None`.
The conversion sees exactly the parameters. -/
theorem from_pymc_node (family : String) (rng size loc : Input) (p : List (Option ℝ))
    (sigma mu : Option ℝ) :
    (family ≠ "HalfNormal" → family ≠ "LogitNormal" →
      fromNode family (rng :: size :: p.map .num) = reparametrize family p) ∧
    fromNode "HalfNormal" [rng, size, loc, .num sigma] = .ok (.positional [sigma]) ∧
    fromNode "LogitNormal" [rng, .num mu, .num sigma] = .ok (.positional [mu, sigma]) ∧
    fromNode "LogitNormal" [rng, .other, .num mu, .num sigma] = .ok (.positional [mu, sigma]) := by
  refine ⟨fun h1 h2 => ?_, ?_, ?_, ?_⟩
  · have : (p.map Input.num).filterMap Input.number = p := by
      induction p with
      | nil => rfl
      | cons a l ih => simp [Input.number, ih]
    simp [fromNode, skipInputs, h1, h2, this]
  · simp [fromNode, skipInputs, reparametrize, Input.number]
  · simp [fromNode, skipInputs, reparametrize, Input.number]
  · simp [fromNode, skipInputs, reparametrize, Input.number, List.filterMap]

example : fromNode "Normal" [.other, .other, .num (some 0), .num (some 2)] =
    .ok (.positional [some 0, some 2]) := by
  simp [fromNode, skipInputs, reparametrize, Input.number]

/-- a missing parameter comes out as missing, the others unchanged: Exponential, Gamma (either one),
Rice (`nu`), NegativeBinomial (`mu`), HyperGeometric (`N` or `n`) -/
theorem from_pymc_missing_partial (x y : ℝ) (hy : 0 < y) :
    reparametrize "Exponential" (pmExponential none) = .ok (.positional [none]) ∧
    reparametrize "Gamma" (pmGamma (some x) none) =
      .ok (.named [("alpha", some x), ("beta", none)]) ∧
    reparametrize "Gamma" (pmGamma none (some y)) =
      .ok (.named [("alpha", none), ("beta", some y)]) ∧
    reparametrize "Rice" (pmRice none (some y)) =
      .ok (.named [("nu", none), ("sigma", some y)]) ∧
    reparametrize "NegativeBinomial" (pmNegativeBinomial none (some y)) =
      .ok (.named [("mu", none), ("alpha", some y)]) ∧
    reparametrize "HyperGeometric" (pmHyperGeometric none (some x) (some y)) =
      .ok (.named [("N", none), ("k", some x), ("n", some y)]) ∧
    reparametrize "HyperGeometric" (pmHyperGeometric (some x) (some y) none) =
      .ok (.named [("N", some x), ("k", some y), ("n", none)]) := by
  refine ⟨?_, ?_, ?_, ?_, ?_, ?_, ?_⟩ <;>
    simp [reparametrize, pmAsymmetricLaplace, pmExponential, pmGamma, pmRice,
      pmSkewStudentT, pmWald, pmBetaBinomial, pmNegativeBinomial, pmHyperGeometric, ndiv, nadd, nsub, invOpt, hy.ne']

/-- negation: a given `mu` next to a missing `alpha`, a given `nu` next to a missing `sigma` and a given
`N` next to a missing `k` are lost - all come out missing -/
theorem from_pymc_loses_given (x y : ℝ) :
    reparametrize "NegativeBinomial" (pmNegativeBinomial (some x) none) =
      .ok (.named [("mu", none), ("alpha", none)]) ∧
    reparametrize "Rice" (pmRice (some x) none) =
      .ok (.named [("nu", none), ("sigma", none)]) ∧
    reparametrize "HyperGeometric" (pmHyperGeometric (some x) none (some y)) =
      .ok (.named [("N", none), ("k", none), ("n", some y)]) := by
  refine ⟨?_, ?_, ?_⟩ <;> simp [reparametrize, pmAsymmetricLaplace, pmExponential, pmGamma, pmRice,
      pmSkewStudentT, pmWald, pmBetaBinomial, pmNegativeBinomial, pmHyperGeometric, ndiv, nadd, nsub, invOpt]

/-- zero-inflated nodes: `psi` is the weight of the base component, and the Negative Binomial is
converted back to mean and overdispersion -/
theorem from_pymc_zero_inflated (psi mu alpha : ℝ) (hm : 0 ≤ mu) (ha : 0 < alpha) (n p : Option ℝ)
    (base : String) (hb : base ≠ "NegativeBinomial") :
    zeroInflated "NegativeBinomial" [some (1 - psi), some psi]
      (pmNegativeBinomial (some mu) (some alpha)) =
      .ok ("ZeroInflatedNegativeBinomial", .positional [some psi, some mu, some alpha]) ∧
    zeroInflated base [some (1 - psi), some psi] [n, p] =
      .ok ("ZeroInflated" ++ base, .positional [some psi, n, p]) := by
  have h1 : mu + alpha ≠ 0 := by linarith
  have h3 : alpha * (1 - alpha / (mu + alpha)) / (alpha / (mu + alpha)) = mu := by field_simp; ring
  constructor
  · simp only [zeroInflated, pmNegativeBinomial, ndiv, nadd]
    simp [h3, h1, ha.ne']
  · simp [zeroInflated, hb]

/-- bounds of truncated and censored nodes -/
theorem from_pymc_bounds (l u : ℝ) :
    bounds (some l) (some u) = ((l : EReal), (u : EReal)) ∧ bounds none (some u) = (⊥, (u : EReal)) ∧
    bounds (some l) none = ((l : EReal), ⊤) ∧ bounds none none = (⊥, ⊤) := ⟨rfl, rfl, rfl, rfl⟩

end Verif.Props
