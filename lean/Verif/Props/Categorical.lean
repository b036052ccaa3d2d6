import Verif.Model.Categorical
import Verif.Spec.Delegate
import Verif.Props.RoundTrip
import Mathlib.Analysis.SpecialFunctions.Log.NegMulLog
import Mathlib.Tactic

/-!
# C94: Categorical
-/

namespace Verif.Props
open Verif Verif.Categorical

private theorem expit_real (x : ℝ) : Categorical.expit (some (x : EReal)) = some (Param.expit x) := rfl

private theorem expit_bot : Categorical.expit (some ⊥) = some (0 / (1 + 0)) := rfl
private theorem expit_top : Categorical.expit (some ⊤) = some (1 / (1 + 0)) := rfl

private theorem logit_in {p : ℝ} (h0 : 0 < p) (h1 : p < 1) :
    Categorical.logit (some p) = some ((Real.log (p / (1 - p)) : ℝ) : EReal) := by
  have a : ¬ p = 0 := h0.ne'
  have b : ¬ p = 1 := h1.ne
  have c : ¬ (p < 0 ∨ p > 1) := by rintro (h | h) <;> linarith
  simp only [Categorical.logit, if_neg a, if_neg b, if_neg c]

/-- **C94**: the log odds of the probability given by log odds are the log odds, infinite ones
included. -/
theorem logit_of_expit (x : EReal) : Categorical.logit (Categorical.expit (some x)) = some x := by
  induction x using EReal.rec with
  | bot => simp [expit_bot, Categorical.logit]
  | top => simp [expit_top, Categorical.logit]
  | coe x =>
    rw [expit_real]
    obtain ⟨h0, h1, h2⟩ := logit_expit x
    rw [logit_in h0 h1]
    unfold Param.logit at h2
    rw [if_neg h0.ne', if_neg h1.ne, if_neg (by rintro (h | h) <;> linarith)] at h2
    rw [Option.some.inj h2]

/-- **C94**: and back, for every probability; other numbers have no log odds. -/
theorem expit_of_logit (p : ℝ) :
    (0 ≤ p → p ≤ 1 → Categorical.expit (Categorical.logit (some p)) = some p) ∧
    ((p < 0 ∨ 1 < p) → Categorical.logit (some p) = none) := by
  constructor
  · intro h0 h1
    rcases h0.lt_or_eq with h0 | rfl
    · rcases h1.lt_or_eq with h1 | rfl
      · rw [logit_in h0 h1, expit_real]
        obtain ⟨x, hx, he⟩ := expit_logit p h0 h1
        unfold Param.logit at hx
        rw [if_neg h0.ne', if_neg h1.ne, if_neg (by rintro (h | h) <;> linarith)] at hx
        rw [Option.some.inj hx, he]
      · simp [expit_top, Categorical.logit]
    · simp [expit_bot, Categorical.logit]
  · intro h
    have a : ¬ p = 0 := by rintro rfl; rcases h with h | h <;> linarith
    have b : ¬ p = 1 := by rintro rfl; rcases h with h | h <;> linarith
    simp only [Categorical.logit, if_neg a, if_neg b]
    exact if_pos h

/-- **C94**: `xlogx` is minus the entropy term of a probability, zero included. -/
theorem xlogx_value (x : ℝ) (h : 0 ≤ x) : xlogx x = some (-Real.negMulLog x) := by
  unfold xlogx Real.negMulLog
  rcases h.lt_or_eq with h | rfl
  · rw [if_neg h.ne', if_neg (by linarith)]
    congr 1
    ring
  · simp

/-- the log odds of a list of numbers -/
noncomputable def oddsOf (p : List ℝ) : List (Option EReal) := p.map fun x => Categorical.logit (some x)

/-- **C94**: `Categorical(p)` is frozen, takes the values `0 … |p|-1`, and reports `p`; neither
lengths nor signs nor sum are looked at. -/
theorem categorical_from_p (p : List ℝ) : ∃ o, construct (some p) none = .ok o ∧ o.frozen = true ∧
    o.p = some (p.map some) ∧ o.logitP = some (oddsOf p) ∧ o.support = some (0, (p.length : ℤ) - 1) ∧
    o.params = some (.inl (p.map some)) := by
  refine ⟨_, rfl, rfl, ?_, ?_, ?_, ?_⟩ <;> simp [update, oddsOf]

/-- **C94**: `Categorical(logit_p=l)` reports `l`. -/
theorem categorical_from_logit (l : List EReal) : ∃ o, construct none (some l) = .ok o ∧
    o.frozen = true ∧ o.support = some (0, (l.length : ℤ) - 1) ∧
    o.logitP = some (l.map some) ∧ o.params = some (.inr (l.map some)) := by
  have h : (l.map fun x => Categorical.expit (some x)).map Categorical.logit = l.map some := by
    rw [List.map_map]
    exact List.map_congr_left fun x _ => logit_of_expit x
  refine ⟨_, rfl, rfl, ?_, ?_, ?_⟩
  · simp [update]
  · simpa [update] using h
  · simpa [update] using h

/-- **C94**: for probabilities, giving them or their log odds builds the same distribution. -/
theorem categorical_same (p : List ℝ) (hp : ∀ x ∈ p, 0 ≤ x ∧ x ≤ 1) :
    ∃ l o o', (l.map some = oddsOf p) ∧ construct (some p) none = .ok o ∧
      construct none (some l) = .ok o' ∧ o'.p = o.p ∧ o'.logitP = o.logitP ∧
      o'.support = o.support ∧ o'.frozen = o.frozen := by
  have hfin : ∀ x ∈ p, ∃ y : EReal, Categorical.logit (some x) = some y := by
    intro x hx
    unfold Categorical.logit
    obtain ⟨h0, h1⟩ := hp x hx
    have : ¬ (x < 0 ∨ x > 1) := by rintro (h | h) <;> linarith
    dsimp only
    split_ifs <;> exact ⟨_, rfl⟩
  obtain ⟨l, hl⟩ : ∃ l : List EReal, l.map some = oddsOf p := by
    unfold oddsOf
    clear hp
    induction p with
    | nil => exact ⟨[], rfl⟩
    | cons a t ih =>
      obtain ⟨y, hy⟩ := hfin a (by simp)
      obtain ⟨l, hl⟩ := ih fun x hx => hfin x (by simp [hx])
      exact ⟨y :: l, by simp [hy, hl]⟩
  have hback : (l.map fun x => Categorical.expit (some x)) = p.map some := by
    have : l.map (fun x => Categorical.expit (some x)) = (l.map some).map Categorical.expit := by
      rw [List.map_map]; rfl
    rw [this, hl, oddsOf, List.map_map]
    exact List.map_congr_left fun x hx => (expit_of_logit x).1 (hp x hx).1 (hp x hx).2
  refine ⟨l, _, _, hl, rfl, rfl, ?_, ?_, ?_, rfl⟩ <;> simp [update, hback]

/-- **C94**: the probabilities of a distribution built from (finite) log odds -/
theorem categorical_probs (l : List ℝ) : ∃ o, construct none (some (l.map Real.toEReal)) = .ok o ∧
    o.p = some (l.map fun x => some (Real.exp x / (1 + Real.exp x))) := by
  refine ⟨_, rfl, ?_⟩
  simp only [update, List.map_map]
  have : ∀ x : ℝ, Categorical.expit (some (x : EReal)) = some (Real.exp x / (1 + Real.exp x)) := by
    intro x
    rw [expit_real]
    unfold Param.expit
    split_ifs
    · rw [Real.exp_neg]
      have := Real.exp_pos x
      congr 1
      field_simp
      ring
    · rfl
  simp [this]

/-- **C94**, negative: three or more categories with log odds that are not negative are given
probabilities that sum to more than one. -/
theorem categorical_sum_wrong (l : List ℝ) (hn : 3 ≤ l.length) (hl : ∀ x ∈ l, 0 ≤ x) :
    ∃ o, ∃ q : List ℝ, construct none (some (l.map Real.toEReal)) = .ok o ∧ o.frozen = true ∧
      o.p = some (q.map some) ∧ 3 / 2 ≤ q.sum := by
  obtain ⟨o, ho, hp⟩ := categorical_probs l
  refine ⟨o, l.map fun x => Real.exp x / (1 + Real.exp x), ho, ?_, ?_, ?_⟩
  · obtain ⟨o', ho', hf, -⟩ := categorical_from_logit (l.map Real.toEReal)
    rw [ho] at ho'
    cases ho'
    exact hf
  · rw [hp, List.map_map]; rfl
  · have : ∀ m : List ℝ, (∀ x ∈ m, 0 ≤ x) →
        (m.length : ℝ) * (1 / 2) ≤ (m.map fun x => Real.exp x / (1 + Real.exp x)).sum := by
      intro m
      induction m with
      | nil => simp
      | cons a t ih =>
        intro h
        have h1 := ih fun x hx => h x (by simp [hx])
        have h2 : (1 : ℝ) / 2 ≤ Real.exp a / (1 + Real.exp a) := by
          have := Real.one_le_exp (h a (by simp))
          rw [div_le_div_iff₀ (by norm_num) (by positivity)]
          linarith
        simp only [List.map_cons, List.sum_cons, List.length_cons]
        push_cast
        linarith
    have h3 := this l hl
    have h4 : (3 : ℝ) ≤ l.length := by exact_mod_cast hn
    linarith

/-- **C94**, what holds: with two categories the probabilities sum to one exactly when the log odds
are opposite. -/
theorem categorical_sum_two_partial (a b : ℝ) :
    ∃ o, ∃ q : List ℝ, construct none (some [(a : EReal), (b : EReal)]) = .ok o ∧ o.p = some (q.map some) ∧
      (q.sum = 1 ↔ b = -a) := by
  obtain ⟨o, ho, hp⟩ := categorical_probs [a, b]
  refine ⟨o, [Real.exp a / (1 + Real.exp a), Real.exp b / (1 + Real.exp b)], ho, hp, ?_⟩
  have ha := Real.exp_pos a
  have hb := Real.exp_pos b
  have h1 : [Real.exp a / (1 + Real.exp a), Real.exp b / (1 + Real.exp b)].sum = 1 ↔
      Real.exp a * Real.exp b = 1 := by
    simp only [List.sum_cons, List.sum_nil, add_zero]
    rw [div_add_div _ _ (by positivity) (by positivity), div_eq_one_iff_eq (by positivity)]
    constructor <;> intro h <;> nlinarith
  rw [h1, ← Real.exp_add, Real.exp_eq_one_iff]
  constructor <;> intro h <;> linarith

/-- **C94**: both arguments are refused; with neither the object is not frozen and has no support. -/
theorem categorical_arguments (p : List ℝ) (l : List EReal) :
    construct (some p) (some l) = .error .valueError ∧
    ∃ o, construct none none = .ok o ∧ o.frozen = false ∧ o.support = none ∧ o.params = none :=
  ⟨rfl, _, rfl, rfl, rfl, rfl⟩

/-- **C94**, negative: an update with another number of categories keeps the old support. -/
theorem categorical_update_support (p : List (Option ℝ)) (o : Cat) :
    (update p o).p = some p ∧ (update p o).support = o.support := by
  unfold update
  dsimp only
  constructor <;> (split_ifs <;> rfl)

/-- **C94**: every method hands the probabilities to the library function of the same name. -/
theorem categorical_calls {α : Type} (user attr : Delegate.Id → α) (m : Delegate.Meth)
    (hm : ∃ r ∈ rows, r.meth = m) (w : Delegate.Wiring) (hw : w.rows = rows) (hmod : w.module = "categorical") :
    w.call m user attr = .ok ⟨"categorical", m, (Spec.leading m).map user ++ [attr .p],
      (Spec.keywords m).map fun i => (i, user i)⟩ := by
  have key : ∀ r ∈ rows, (match r.resolve with
      | .ok (args, kws) => r.ext = r.meth && args = (Spec.leading r.meth).map .own ++ [.attr .p] &&
          kws = (Spec.keywords r.meth).map fun i => (i, .own i)
      | .error _ => false) = true := by decide +kernel
  unfold Delegate.Wiring.call
  rw [hw]
  cases hf : rows.find? (·.meth = m) with
  | none =>
    obtain ⟨r, hr, rfl⟩ := hm
    have := List.find?_eq_none.mp hf r hr
    simp at this
  | some r =>
    have hr := List.mem_of_find?_eq_some hf
    have hrm : r.meth = m := by simpa using List.find?_some hf
    have := key r hr
    revert this
    cases hres : r.resolve with
    | error e => simp
    | ok q =>
      obtain ⟨args, kws⟩ := q
      intro h
      simp only [Bool.and_eq_true, decide_eq_true_eq] at h
      obtain ⟨⟨h1, h2⟩, h3⟩ := h
      subst h2 h3
      simp only [hres, Except.ok_bind', Except.pure_eq, h1, hrm, hmod, List.map_append, List.map_map]
      rfl

theorem categorical_methods : ∀ m ∈ [Delegate.Meth.pdf, .cdf, .ppf, .logpdf, .entropy, .mean, .mode,
    .median, .var, .std, .skewness, .kurtosis, .rvs], ∃ r ∈ rows, r.meth = m := by decide +kernel

/-! ### Examples -/

example : ∃ o, construct (some [1 / 4, 1 / 4, 1 / 2]) none = .ok o ∧ o.support = some (0, 2) := by
  obtain ⟨o, h, -, -, -, hs, -⟩ := categorical_from_p [1 / 4, 1 / 4, 1 / 2]
  exact ⟨o, h, by rw [hs]; rfl⟩

/-- three equal log odds: probabilities one half each -/
example : (3 : ℕ) ≤ [(0 : ℝ), 0, 0].length ∧ ∀ x ∈ [(0 : ℝ), 0, 0], (0 : ℝ) ≤ x := by simp

example : ∀ x ∈ [(0 : ℝ), 1, 1 / 2], 0 ≤ x ∧ x ≤ 1 := by norm_num

example : xlogx 0 = some 0 ∧ xlogx (-1) = none := by norm_num [xlogx]

end Verif.Props
