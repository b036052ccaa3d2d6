import Verif.Model.Survival
import Verif.Props.Truncated
import Verif.Props.Censored
import Verif.Props.Hurdle
import Verif.Props.Mixture

set_option linter.unusedSimpArgs false

/-!
# C80: survival functions of modified distributions
-/

namespace Verif.Props
open Verif MeasureTheory Verif.Spec Verif.Modifier Verif.Survival

/-- the logarithm of a probability, `-inf` at zero, characterised by its exponential -/
def IsLogOf (r : Option EReal) (p : ℝ) : Prop :=
  ∃ e, r = some e ∧ e ≠ ⊤ ∧ (e = ⊥ ↔ p = 0) ∧ ∀ v : ℝ, e = v → Real.exp v = p

/-- `Q` is the smallest point beyond which at most the probability `q` lies -/
def IsTailQuantile (μ : Measure ℝ) (q : ℝ) (Q : EReal) : Prop :=
  ∀ x : ℝ, Q ≤ (x : EReal) ↔ μ.real (Set.Ioi x) ≤ q

theorem npLog_isLog (p : ℝ) (h : 0 ≤ p) : IsLogOf (npLog p) p := by
  unfold npLog
  rw [if_neg (not_lt.2 h)]
  by_cases h0 : p = 0
  · rw [if_pos h0]; exact ⟨⊥, rfl, by simp, by simp [h0], by intro v hv; simp at hv⟩
  · rw [if_neg h0]
    refine ⟨_, rfl, EReal.coe_ne_top _, by simp [h0], ?_⟩
    intro v hv
    have : v = Real.log p := by exact_mod_cast hv.symm
    rw [this, Real.exp_log (lt_of_le_of_ne h (Ne.symm h0))]

theorem tail_of_quantile (μ : Measure ℝ) [IsProbabilityMeasure μ] (q : ℝ) (Q : EReal)
    (h : IsQuantile μ (1 - q) Q) : IsTailQuantile μ q Q := by
  intro x
  rw [h x, ← Set.compl_Iic, probReal_compl_eq_one_sub measurableSet_Iic]
  constructor <;> intro h <;> linarith

/-- the four functions of an object at the point `x`, for a law `μ` -/
structure Right (d : Methods) (μ : Measure ℝ) (x : ℝ) : Prop where
  sf : d.sf x = μ.real (Set.Ioi x)
  logsf : IsLogOf (d.logsf x) (μ.real (Set.Ioi x))
  logcdf : IsLogOf (d.logcdf x) (μ.real (Set.Iic x))

theorem right_iff (d : Methods) (μ : Measure ℝ) [IsProbabilityMeasure μ] (x : ℝ) :
    Right d μ x ↔ d.cdf x = μ.real (Set.Iic x) := by
  have e : μ.real (Set.Ioi x) = 1 - μ.real (Set.Iic x) := by
    rw [← Set.compl_Iic, probReal_compl_eq_one_sub measurableSet_Iic]
  constructor
  · intro h
    have := h.sf
    unfold Methods.sf at this
    linarith
  · intro h
    have hs : d.sf x = μ.real (Set.Ioi x) := by unfold Methods.sf; rw [e, h]
    refine ⟨hs, ?_, ?_⟩
    · unfold Methods.logsf; rw [hs]; exact npLog_isLog _ measureReal_nonneg
    · unfold Methods.logcdf; rw [h]; exact npLog_isLog _ measureReal_nonneg

/-- C80: for a truncated distribution the survival function is the probability beyond the point, its logarithm and that of
the cdf are right (`-inf` for probability zero), and `isf` of a number in [0, 1) is the smallest point beyond which at
most that probability lies, always between the bounds. -/
theorem truncated_survival (b : Base) (l u : EReal) (hl : b.discrete = true → Whole l)
    (hm : 0 < b.law.real (between l u)) :
    (∀ x, Right (truncated b l u) (truncLaw b.law l u) x) ∧
    ∀ q, 0 ≤ q → q < 1 → ∃ Q, (truncated b l u).isf q = some Q ∧ IsTailQuantile (truncLaw b.law l u) q Q ∧
      l ≤ Q ∧ Q ≤ u := by
  have : IsProbabilityMeasure (truncLaw b.law l u) := by
    unfold truncLaw
    refine ProbabilityTheory.cond_isProbabilityMeasure ?_
    intro h0
    simp [Measure.real, h0] at hm
  refine ⟨fun x => (right_iff _ _ x).2 (truncated_cdf b l u hl hm x), ?_⟩
  intro q h0 h1
  obtain ⟨Q, hQ, hq, h⟩ := truncated_ppf b l u hl hm (1 - q) (by linarith) (by linarith)
  exact ⟨Q, hQ, tail_of_quantile _ q Q hq, h⟩

/-- C80: outside [0, 1], `isf` of a truncated distribution is `nan`. -/
theorem truncated_isf_nan (b : Base) (l u : EReal) (q : ℝ) :
    (truncated b l u).isf q = none ↔ q < 0 ∨ 1 < q := by
  show truncPpf b l u (1 - q) = none ↔ _
  rw [truncated_ppf_nan]
  constructor <;> rintro (h | h)
  · right; linarith
  · left; linarith
  · right; linarith
  · left; linarith

/-- C80, what fails: `isf(1)` of a truncated discrete distribution lies below its lower bound when the base has mass
there. -/
theorem truncated_isf_one_below (b : Base) (hd : b.discrete = true) (n : ℤ) (u : EReal)
    (hbelow : 0 < b.cdf (((n - 1 : ℤ) : ℝ) : EReal)) :
    ∃ Q, (truncated b ((n : ℝ) : EReal) u).isf 1 = some Q ∧ Q < ((n : ℝ) : EReal) := by
  obtain ⟨Q, h, h'⟩ := truncated_ppf_zero_below b hd n u hbelow
  refine ⟨Q, ?_, h'⟩
  show truncPpf _ _ _ (1 - 1) = _
  rw [sub_self, h]

/-- C80: a censored distribution has the right survival function exactly at the points other than the upper bound, or if
nothing lies beyond it; `isf` is right everywhere in [0, 1). -/
theorem censored_survival_partial (b : Base) (l u : EReal) (hp : (censBounds b l u).1 ≤ (censBounds b l u).2)
    (hL : (censBounds b l u).1 ≠ ⊤) (hU : (censBounds b l u).2 ≠ ⊥) :
    (∀ x : ℝ, Right (censored b l u) (censLaw b.law l u) x ↔
      ((x : EReal) ≠ (censBounds b l u).2 ∨ b.law.real (Set.Ioi x) = 0)) ∧
    ∀ q, 0 ≤ q → q < 1 → ∃ Q, (censored b l u).isf q = some Q ∧ IsTailQuantile (censLaw b.law l u) q Q ∧
      l ≤ Q ∧ Q ≤ u := by
  have : IsProbabilityMeasure (censLaw b.law l u) :=
    Measure.isProbabilityMeasure_map (clip_meas l u).aemeasurable
  constructor
  · intro x
    rw [right_iff]
    show censCdf b _ _ x = _ ↔ _
    rw [censored_cdf_partial b l u hp hL hU x, b.cdf_coe, ← Set.compl_Iic,
      probReal_compl_eq_one_sub measurableSet_Iic, sub_eq_zero, eq_comm (a := (1 : ℝ))]
  · intro q h0 h1
    obtain ⟨hq, h⟩ := censored_ppf b l u hp hL hU (1 - q) (by linarith) (by linarith)
    exact ⟨_, rfl, tail_of_quantile _ q _ hq, h⟩

/-- C80, what fails: at a finite upper bound with mass beyond it, `sf` is that mass, although nothing lies beyond the
bound. -/
theorem censored_survival_upper (b : Base) (l : EReal) (u : ℝ) (hp : (censBounds b l u).1 ≤ (u : EReal))
    (hu : (u : EReal) ≤ b.hi) (hL : (censBounds b l u).1 ≠ ⊤) (hm : 0 < b.law.real (Set.Ioi u)) :
    0 < (censored b l u).sf u ∧ (censLaw b.law l u).real (Set.Ioi u) = 0 := by
  have h2 : (censBounds b l u).2 = (u : EReal) := min_eq_right hu
  have : IsProbabilityMeasure (censLaw b.law l u) :=
    Measure.isProbabilityMeasure_map (clip_meas l u).aemeasurable
  constructor
  · show 0 < 1 - censCdf b _ _ u
    rw [h2]
    unfold censCdf
    rw [if_neg (not_lt.2 hp), if_neg (lt_irrefl _), b.cdf_coe,
      ← probReal_compl_eq_one_sub measurableSet_Iic, Set.compl_Iic]
    exact hm
  · rw [← Set.compl_Iic, probReal_compl_eq_one_sub measurableSet_Iic, b.censLaw_cut (by rw [h2]; exact hp),
      b.cens_Iic (by rw [h2]; exact hp) hL (by rw [h2]; exact EReal.coe_ne_bot _), h2, if_neg (not_lt.2 hp), if_pos le_rfl,
      sub_self]

/-- C80: a hurdle distribution has the right survival function exactly at the points from zero on, or if `psi = 1` (for a
base without mass in `(0, eps]`); `isf` is right, except at `q = psi` when the base has no mass at zero. -/
theorem hurdle_survival_partial (b : Base) (hb : HurdleBase b) (psi : ℝ) (h0 : 0 < psi) (h1 : psi ≤ 1)
    (hgap : b.cdf ((eps : ℝ) : EReal) = b.cdf ((0 : ℝ) : EReal)) :
    (∀ x : ℝ, Right (hurdle b psi) (hurdleLaw b.law psi) x ↔ (0 ≤ x ∨ psi = 1)) ∧
    (∀ q, 0 ≤ q → q < 1 → (q ≠ psi ∨ 0 < b.cdf ((0 : ℝ) : EReal)) →
      ∃ Q, (hurdle b psi).isf q = some Q ∧ IsTailQuantile (hurdleLaw b.law psi) q Q) := by
  have : IsProbabilityMeasure (hurdleLaw b.law psi) := by
    have h : (hurdleLaw b.law psi).real Set.univ = 1 := by
      rw [hurdleLaw_real _ _ h0.le h1, Set.inter_univ, if_pos (Set.mem_univ _), div_self hb.pos.ne']
      ring
    constructor
    rw [Measure.real, ENNReal.toReal_eq_one_iff] at h
    exact h
  constructor
  · intro x
    rw [right_iff]
    exact hurdle_cdf_partial b hb psi h0.le h1 hgap x
  · intro q hq0 hq1 hne
    obtain ⟨Q, hQ, hq, -⟩ := hurdle_ppf_partial b (Or.inr hgap) hb psi h0 h1 (1 - q) (by linarith) (by linarith)
      (hne.imp_left fun h h' => h (by linarith))
    exact ⟨Q, hQ, tail_of_quantile _ q Q hq⟩

/-- C80, what fails: the survival function of a hurdle distribution at a negative point is `psi`, not 1. -/
theorem hurdle_survival_negative (b : Base) (psi x : ℝ) (hx : x < 0) : (hurdle b psi).sf x = psi := by
  show 1 - hurdleCdf b psi x = psi
  rw [hurdle_cdf_negative b psi x hx]; ring

/-- C80: a mixture has the right survival function and logarithms. -/
theorem mixture_survival (bs : List Base) (ws : List ℝ) (h : GoodWeights bs.length ws) (ppf : ℝ → Option EReal) (x : ℝ) :
    Right ⟨mixCdf bs ws, ppf⟩ (mixLaw (bs.map Base.law) ws) x := by
  have : IsProbabilityMeasure (mixLaw (bs.map Base.law) ws) := by
    have := mixture_proper bs ws h
    constructor
    rw [Measure.real, ENNReal.toReal_eq_one_iff] at this
    exact this
  exact (right_iff _ _ x).2 (mixture_cdf bs ws h x)

/-- a die with the values 0 to 5, seen from 2 on, and cut at 3 -/
example : ((dice 5).discrete = true → Whole ((2 : ℝ) : EReal)) ∧
    0 < (dice 5).law.real (between ((2 : ℝ) : EReal) ((4 : ℝ) : EReal)) ∧
    0 < (dice 5).cdf (((2 - 1 : ℤ) : ℝ) : EReal) := by
  classical
  refine ⟨fun _ => Or.inr (Or.inr ⟨2, by norm_num⟩), ?_, ?_⟩
  · show 0 < (diceLaw 5).real _
    rw [diceLaw_real]
    norm_num [Finset.sum_range_succ, between]
  · rw [Base.cdf_coe]
    show 0 < (diceLaw 5).real _
    rw [diceLaw_real]
    norm_num [Finset.sum_range_succ]

example : (censBounds (dice 5) ((1 : ℝ) : EReal) ((3 : ℝ) : EReal)).1 ≤ ((3 : ℝ) : EReal) ∧
    ((3 : ℝ) : EReal) ≤ (dice 5).hi ∧ 0 < (dice 5).law.real (Set.Ioi 3) := by
  classical
  refine ⟨?_, ?_, ?_⟩
  · show max (0 : EReal) _ ≤ _
    refine max_le (by exact_mod_cast (by norm_num : (0 : ℝ) ≤ 3)) (by exact_mod_cast (by norm_num : (1 : ℝ) ≤ 3))
  · show _ ≤ (((5 : ℕ) : ℝ) : EReal)
    rw [EReal.coe_le_coe_iff]; norm_num
  · show 0 < (diceLaw 5).real _
    rw [diceLaw_real]
    norm_num [Finset.sum_range_succ]

example : HurdleBase (dice 5) ∧ (dice 5).cdf ((eps : ℝ) : EReal) = (dice 5).cdf ((0 : ℝ) : EReal) := by
  classical
  refine ⟨⟨diceLaw_ae 5 _ fun k _ => by positivity, ?_⟩, ?_⟩
  · show 0 < (diceLaw 5).real _
    rw [diceLaw_real]; norm_num [Finset.sum_range_succ]
  · rw [Base.cdf_coe, Base.cdf_coe]
    show (diceLaw 5).real _ = (diceLaw 5).real _
    rw [diceLaw_real, diceLaw_real]
    norm_num [Finset.sum_range_succ, eps]

example : GoodWeights [dice 1, dice 5].length [1, 3] := ⟨rfl, by simp, by norm_num⟩

end Verif.Props
