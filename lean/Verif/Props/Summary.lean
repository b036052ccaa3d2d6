import Verif.Model.Summary
import Verif.Lemmas.Interval
import Mathlib.Tactic

/-!
# C70: `summary()`
-/

namespace Verif.Props
open Verif Verif.Modifier Verif.Interval Verif.Summary

/-- a number shown with `n` decimals: a multiple of `10 ^ (-n)` at distance at most half a unit;
infinities are shown as they are -/
def Shows (n : ℕ) (x y : EReal) : Prop :=
  (x = ⊤ ∧ y = ⊤) ∨ (x = ⊥ ∧ y = ⊥) ∨
    ∃ (a : ℝ) (k : ℤ), x = (a : EReal) ∧ y = ((k / 10 ^ n : ℝ) : EReal) ∧
      |a - k / 10 ^ n| ≤ 1 / 2 / 10 ^ n

/-- the effect of the format `".nf"`, whatever it does with ties -/
def Decimals (n : ℕ) (r : EReal → EReal) : Prop := ∀ x, Shows n x (r x)

/-- rounding twice is rounding once -/
theorem decimals_idem {n : ℕ} {r : EReal → EReal} (hr : Decimals n r) (x : EReal) : r (r x) = r x := by
  have ht : r ⊤ = ⊤ := by
    rcases hr ⊤ with h | h | ⟨a, k, h, -⟩
    · exact h.2
    · exact absurd h.1 (by decide)
    · exact absurd h (EReal.coe_ne_top a).symm
  have hb : r ⊥ = ⊥ := by
    rcases hr ⊥ with h | h | ⟨a, k, h, -⟩
    · exact absurd h.1 (by decide)
    · exact h.2
    · exact absurd h (EReal.coe_ne_bot a).symm
  rcases hr x with h | h | ⟨a, k, h, hk, -⟩
  · rw [h.2, ht]
  · rw [h.2, hb]
  · rw [hk]
    rcases hr ((k / 10 ^ n : ℝ) : EReal) with h' | h' | ⟨a', k', h1, h2, h3⟩
    · exact absurd h'.1 (EReal.coe_ne_top _)
    · exact absurd h'.1 (EReal.coe_ne_bot _)
    · have h1 : (k / 10 ^ n : ℝ) = a' := EReal.coe_eq_coe_iff.1 h1
      rw [← h1] at h3
      rw [h2]
      have hp : (0 : ℝ) < 10 ^ n := by positivity
      rw [← sub_div, abs_div, abs_of_pos hp, div_le_div_iff_of_pos_right hp] at h3
      have : |((k - k' : ℤ) : ℝ)| ≤ 1 / 2 := by push_cast; exact h3
      rw [← Int.cast_abs] at this
      have h4 : |k - k'| < 1 := by
        have : ((|k - k'| : ℤ) : ℝ) < 1 := by linarith
        exact_mod_cast this
      have h5 : k = k' := by
        have := Int.abs_lt_one_iff.1 h4
        omega
      rw [h5]

/-- rounding keeps the order -/
theorem decimals_mono {n : ℕ} {r : EReal → EReal} (hr : Decimals n r) {x y : EReal} (h : x ≤ y) :
    r x ≤ r y := by
  rcases eq_or_lt_of_le h with rfl | h
  · exact le_rfl
  rcases hr x with hx | hx | ⟨a, k, hx, hk, hd⟩
  · rw [hx.1] at h
    exact absurd h not_top_lt
  · rw [hx.2]; exact bot_le
  · rcases hr y with hy | hy | ⟨a', k', hy, hk', hd'⟩
    · rw [hy.2]; exact le_top
    · rw [hy.1] at h; exact absurd h not_lt_bot
    · rw [hk, hk', EReal.coe_le_coe_iff]
      rw [hx, hy, EReal.coe_lt_coe_iff] at h
      by_contra hc
      push Not at hc
      have hp : (0 : ℝ) < 10 ^ n := by positivity
      rw [div_lt_div_iff_of_pos_right hp] at hc
      have hkk : (k' : ℝ) + 1 ≤ k := by
        have : k' + 1 ≤ k := by exact_mod_cast hc
        exact_mod_cast this
      have h2 : (k' : ℝ) / 10 ^ n + 1 / 10 ^ n ≤ k / 10 ^ n := by
        rw [← add_div]; exact div_le_div_of_nonneg_right hkk hp.le
      have e : (1 : ℝ) / 2 / 10 ^ n = 1 / 10 ^ n / 2 := by ring
      have h3 := (abs_le.1 hd).1
      have h4 := (abs_le.1 hd').2
      linarith

/-- a distribution whose parameters are all set to numbers -/
def Ready (d : Summary.Dist) : Prop := d.categorical = false ∧ d.frozen = true ∧ d.scalar = true

/-- a summary shows the mean, the median and the standard deviation with the requested decimals -/
def ShowsMoments (n : ℕ) (d : Summary.Dist) (s : Result) : Prop :=
  Shows n d.mean s.mean ∧ Shows n d.median s.median ∧ Shows n d.std s.std

/-- The interval in the summary is the one `eti` or `hdi` returns with the same arguments, and an error
of either is an error of the summary; None takes the configured kind. -/
theorem summary_interval (d : Summary.Dist) (hd : Ready d) (kind : String) (ciProb : ℝ)
    (mass : Option ℝ) (n : ℕ) (r : EReal → EReal) (hr : Decimals n r) :
    (∀ lu, Summary.eti d ciProb mass (.fixed r) = .ok lu → ∃ s,
      summary d kind ciProb mass (.kind "eti") (.fixed r) = .ok s ∧ (s.lower, s.upper) = lu ∧
        ShowsMoments n d s) ∧
    (∀ e, Summary.eti d ciProb mass (.fixed r) = .error e →
      summary d kind ciProb mass (.kind "eti") (.fixed r) = .error e) ∧
    (∀ lu, Summary.hdi d ciProb mass (.fixed r) = .ok lu → ∃ s,
      summary d kind ciProb mass (.kind "hdi") (.fixed r) = .ok s ∧ (s.lower, s.upper) = lu ∧
        ShowsMoments n d s) ∧
    (∀ e, Summary.hdi d ciProb mass (.fixed r) = .error e →
      summary d kind ciProb mass (.kind "hdi") (.fixed r) = .error e) ∧
    summary d kind ciProb mass .default (.fixed r) =
      summary d kind ciProb mass (.kind kind) (.fixed r) := by
  obtain ⟨h1, h2, h3⟩ := hd
  have key : ∀ (k : String) (lu : EReal × EReal),
      tails d ciProb mass (.fixed r) (.inl k) = .ok [lu.1, lu.2] →
      (d.base.discrete = false → r lu.1 = lu.1 ∧ r lu.2 = lu.2) → ∃ s,
      summary d kind ciProb mass (.kind k) (.fixed r) = .ok s ∧ (s.lower, s.upper) = lu ∧
        ShowsMoments n d s := by
    intro k lu ht hid
    refine ⟨⟨r d.mean, r d.median, r d.std, lu.1, lu.2⟩, ?_, rfl, hr _, hr _, hr _⟩
    cases hb : d.base.discrete with
    | true => simp [summary, h1, h2, h3, Fmt.apply, ht, item, hb]
    | false =>
      obtain ⟨i1, i2⟩ := hid hb
      simp [summary, h1, h2, h3, Fmt.apply, ht, item, hb, i1, i2]
  have keyE : ∀ (k : String) (e : Err), tails d ciProb mass (.fixed r) (.inl k) = .error e →
      summary d kind ciProb mass (.kind k) (.fixed r) = .error e := by
    intro k e ht
    simp [summary, h1, h2, h3, Fmt.apply, ht]
  refine ⟨fun lu h => ?_, fun e h => ?_, fun lu h => ?_, fun e h => ?_, ?_⟩
  · refine key "eti" lu (by simp [tails, h]) fun hb => ?_
    simp only [Summary.eti, h1, Interval.eti, h2, h3, hb] at h
    simp at h
    rw [← h]
    exact ⟨decimals_idem hr _, decimals_idem hr _⟩
  · exact keyE "eti" e (by simp [tails, h])
  · refine key "hdi" lu (by simp [tails, h]) fun hb => ?_
    simp only [Summary.hdi, h1, h2, h3, hb] at h
    simp at h
    rw [← h]
    exact ⟨decimals_idem hr _, decimals_idem hr _⟩
  · exact keyE "hdi" e (by simp [tails, h])
  · simp [summary]

/-- With a pair of probabilities the interval holds the two quantiles - shown with the requested decimals
for a continuous distribution, as they are for a discrete one - and is ordered when the probabilities
are; what follows the first two is ignored. -/
theorem summary_pair_partial (d : Summary.Dist) (hd : Ready d) (kind : String) (ciProb : ℝ)
    (mass : Option ℝ) (n : ℕ) (r : EReal → EReal) (hr : Decimals n r) (p q : ℝ) (rest : List ℝ)
    (hp : 0 < p) (hpq : p ≤ q) (hq : q ≤ 1) :
    ∃ s, summary d kind ciProb mass (.probs (p :: q :: rest)) (.fixed r) = .ok s ∧
      s.lower ≤ s.upper ∧ ShowsMoments n d s ∧
      (d.base.discrete = true → s.lower = d.base.ppf p ∧ s.upper = d.base.ppf q) ∧
      (d.base.discrete = false → Shows n (d.base.ppf p) s.lower ∧ Shows n (d.base.ppf q) s.upper) := by
  obtain ⟨h1, h2, h3⟩ := hd
  have hm := ppf_mono d.base hp hpq hq
  cases hb : d.base.discrete with
  | true =>
    refine ⟨⟨r d.mean, r d.median, r d.std, d.base.ppf p, d.base.ppf q⟩, ?_, hm,
      ⟨hr _, hr _, hr _⟩, fun _ => ⟨rfl, rfl⟩, fun h => by simp at h⟩
    simp [summary, h1, h2, h3, Fmt.apply, tails, item, hb]
  | false =>
    refine ⟨⟨r d.mean, r d.median, r d.std, r (d.base.ppf p), r (d.base.ppf q)⟩, ?_,
      decimals_mono hr hm, ⟨hr _, hr _, hr _⟩, fun h => by simp at h, fun _ => ⟨hr _, hr _⟩⟩
    simp [summary, h1, h2, h3, Fmt.apply, tails, item, hb]

/-- negation: probabilities in the other order are accepted and give `lower` and `upper` swapped -/
theorem summary_pair_swapped (d : Summary.Dist) (hd : Ready d) (kind : String) (ciProb : ℝ)
    (mass : Option ℝ) (r : EReal → EReal) (p q : ℝ) (s : Result)
    (h : summary d kind ciProb mass (.probs [p, q]) (.fixed r) = .ok s) :
    ∃ s', summary d kind ciProb mass (.probs [q, p]) (.fixed r) = .ok s' ∧
      s'.lower = s.upper ∧ s'.upper = s.lower := by
  obtain ⟨h1, h2, h3⟩ := hd
  cases hb : d.base.discrete with
  | true =>
    simp [summary, h1, h2, h3, Fmt.apply, tails, item, hb] at h
    refine ⟨⟨r d.mean, r d.median, r d.std, d.base.ppf q, d.base.ppf p⟩, ?_, by rw [← h], by rw [← h]⟩
    simp [summary, h1, h2, h3, Fmt.apply, tails, item, hb]
  | false =>
    simp [summary, h1, h2, h3, Fmt.apply, tails, item, hb] at h
    refine ⟨⟨r d.mean, r d.median, r d.std, r (d.base.ppf q), r (d.base.ppf p)⟩, ?_, by rw [← h],
      by rw [← h]⟩
    simp [summary, h1, h2, h3, Fmt.apply, tails, item, hb]

/-- The requests that are refused: Categorical, unset or non-numeric parameters, a format that is not a
string; and fewer than two probabilities. -/
theorem summary_refuses (d : Summary.Dist) (kind : String) (ciProb : ℝ) (mass : Option ℝ)
    (interval : IntervalArg) (r : EReal → EReal) (p : ℝ) :
    (d.categorical = true → ∀ fmt, summary d kind ciProb mass interval fmt = .error .valueError) ∧
    (d.frozen = false → ∀ fmt, summary d kind ciProb mass interval fmt = .error .valueError) ∧
    (d.scalar = false → ∀ fmt, summary d kind ciProb mass interval fmt = .error .valueError) ∧
    summary d kind ciProb mass interval .notString = .error .valueError ∧
    (Ready d → summary d kind ciProb mass (.probs [p]) (.fixed r) = .error .indexError ∧
      summary d kind ciProb mass (.probs []) (.fixed r) = .error .indexError) := by
  refine ⟨fun h fmt => ?_, fun h fmt => ?_, fun h fmt => ?_, ?_, fun hd => ?_⟩
  · cases hc : fmt <;> simp [summary, h, throw, throwThe, MonadExceptOf.throw]
  · cases fmt <;> cases hc : d.categorical <;>
      simp [summary, h, hc, throw, throwThe, MonadExceptOf.throw]
  · cases fmt <;> cases hc : d.categorical <;> cases hf : d.frozen <;>
      simp [summary, h, hc, hf, throw, throwThe, MonadExceptOf.throw]
  · cases hc : d.categorical <;>
      simp [summary, hc, throw, throwThe, MonadExceptOf.throw]
  · obtain ⟨h1, h2, h3⟩ := hd
    constructor <;> cases hb : d.base.discrete <;>
      simp [summary, h1, h2, h3, Fmt.apply, tails, item, hb]

/-- negations: `"none"`, which `eti` and `hdi` take as "no rounding", is refused by `summary`; a string
that names no interval is not reported as a wrong value but as a `NameError` -/
theorem summary_wrong_strings (d : Summary.Dist) (hd : Ready d) (kind : String) (ciProb : ℝ)
    (mass : Option ℝ) (interval : IntervalArg) (r : EReal → EReal) (s : String) (h1 : s ≠ "eti")
    (h2 : s ≠ "hdi") :
    summary d kind ciProb mass interval .none = .error .valueError ∧
    Summary.hdi d ciProb mass .none = .ok (d.findHdi (mass.getD ciProb)) ∧
    summary d kind ciProb mass (.kind s) (.fixed r) = .error .nameError := by
  obtain ⟨e1, e2, e3⟩ := hd
  refine ⟨?_, ?_, ?_⟩
  · simp [summary, e1, e2, e3, Fmt.apply]
  · simp [Summary.hdi, e1, e2, e3]
  · simp [summary, e1, e2, e3, Fmt.apply, tails, h1, h2]

/-- `eti` and `hdi` refuse Categorical, unset and non-numeric parameters, and formats that are not strings. -/
theorem intervals_refuse (d : Summary.Dist) (ciProb : ℝ) (mass : Option ℝ) (fmt : Fmt)
    (h : ¬ Ready d ∨ fmt = .notString) :
    Summary.eti d ciProb mass fmt = .error .valueError ∧ Summary.hdi d ciProb mass fmt = .error .valueError := by
  unfold Ready at h
  cases h1 : d.categorical <;> cases h2 : d.frozen <;> cases h3 : d.scalar <;> cases fmt <;>
    simp_all [Summary.eti, Summary.hdi, Interval.eti, throw, throwThe, MonadExceptOf.throw]

/-- The interval of `hdi` is the one that was found: with its ends shown with the requested decimals for a continuous
distribution, as they are for a discrete one or if no rounding is asked for. -/
theorem hdi_shows (d : Summary.Dist) (hd : Ready d) (ciProb : ℝ) (mass : Option ℝ) (n : ℕ) (r : EReal → EReal)
    (hr : Decimals n r) :
    Summary.hdi d ciProb mass .none = .ok (d.findHdi (mass.getD ciProb)) ∧
    (d.base.discrete = true → Summary.hdi d ciProb mass (.fixed r) = .ok (d.findHdi (mass.getD ciProb))) ∧
    (d.base.discrete = false → ∃ lu, Summary.hdi d ciProb mass (.fixed r) = .ok lu ∧
      Shows n (d.findHdi (mass.getD ciProb)).1 lu.1 ∧ Shows n (d.findHdi (mass.getD ciProb)).2 lu.2) := by
  obtain ⟨h1, h2, h3⟩ := hd
  refine ⟨?_, fun hb => ?_, fun hb => ⟨(r (d.findHdi (mass.getD ciProb)).1, r (d.findHdi (mass.getD ciProb)).2), ?_, hr _, hr _⟩⟩ <;> simp [Summary.hdi, h1, h2, h3, *]

/-- a fair die: mean 3.5, and the interval between its 10% and 90% quantiles -/
noncomputable def die : Summary.Dist where
  base := dice 6
  categorical := false
  frozen := true
  scalar := true
  mean := ((7 / 2 : ℝ) : EReal)
  median := ((3 : ℝ) : EReal)
  std := ((1.707825 : ℝ) : EReal)
  findHdi := fun _ => (((1 : ℝ) : EReal), ((6 : ℝ) : EReal))

example : Ready die := ⟨rfl, rfl, rfl⟩

/-- a rounding to two decimals exists -/
example : Decimals 2 fun x =>
    if x = ⊤ then ⊤ else if x = ⊥ then ⊥ else ((round (x.toReal * 10 ^ 2) / 10 ^ 2 : ℝ) : EReal) := by
  intro x
  induction x using EReal.rec with
  | bot => right; left; simp
  | top => left; simp
  | coe a =>
    right; right
    refine ⟨a, round (a * 10 ^ 2), rfl, by simp, ?_⟩
    have h := abs_sub_round (a * 10 ^ 2)
    have hp : (0 : ℝ) < 10 ^ 2 := by positivity
    have : a - round (a * 10 ^ 2) / 10 ^ 2 = (a * 10 ^ 2 - round (a * 10 ^ 2)) / 10 ^ 2 := by
      field_simp
    rw [this, abs_div, abs_of_pos hp]
    exact div_le_div_of_nonneg_right h hp.le

/-- The named tuple carries the displayed name of the distribution, except that a Hurdle's does not name
its base. -/
theorem summary_name_partial (c : Class) (h : ∀ b, c ≠ .modifier "Hurdle" b)
    (hm : ∀ m b, c = .modifier m b → m ∈ ["Truncated", "Censored", "Hurdle"]) :
    summaryName c = getName c := by
  cases c with
  | plain n => rfl
  | mixture l => rfl
  | modifier m b =>
    have := hm m b rfl
    simp only [List.mem_cons, List.not_mem_nil, or_false] at this
    rcases this with rfl | rfl | rfl
    · simp [summaryName, getName]
    · simp [summaryName, getName]
    · exact absurd rfl (h b)

theorem summary_name_hurdle (b : String) (hb : b ≠ "") :
    summaryName (.modifier "Hurdle" b) = "Hurdle" ∧ getName (.modifier "Hurdle" b) = "Hurdle" ++ b ∧
      summaryName (.modifier "Hurdle" b) ≠ getName (.modifier "Hurdle" b) := by
  refine ⟨by simp [summaryName], rfl, ?_⟩
  simp only [summaryName, getName]
  intro h
  have := congrArg String.length h
  simp [String.length_append] at this
  exact hb this

example : getName (.mixture ["Normal", "Gamma", "Normal"]) = "MixtureNormalGamma" := by decide +kernel

end Verif.Props
