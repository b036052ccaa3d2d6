import Verif.Model.Interactive
import Verif.Model.Explorer
import Verif.Props.Slider
import Mathlib.Tactic

/-!
# C98: start values and interactive exploration
-/

namespace Verif.Props
open Verif Verif.Param Verif.Interactive

/-- inside the bounds, strictly -/
def Inside (v : ℝ) (b : Option ℝ × Option ℝ) : Prop := (∀ l ∈ b.1, l < v) ∧ (∀ u ∈ b.2, v < u)

private theorem eps_small : (0 : ℝ) < eps ∧ eps < 1e-5 := by
  unfold eps
  norm_num

/-- conjunctions of inequalities between numbers, `eps` and `π` -/
local macro "refine_ands" : tactic =>
  `(tactic| (repeat' apply And.intro) <;> first | trivial | (norm_num; done) | (norm_num; linarith) | (simp; done))

/-- **C98**: the start values of every family lie inside the bounds of its parameters. -/
theorem start_inside (f : Family) : List.Forall₂ (fun p b => Inside p.2 b) (startVals f) (bounds 50 f) := by
  obtain ⟨h1, h2⟩ := eps_small
  have h3 := Real.pi_pos
  norm_num at h2
  have e1 : ∀ v b, Inside v (none, b) ↔ ∀ u ∈ b, v < u := by simp [Inside]
  have e2 : ∀ v a, Inside v (some a, none) ↔ a < v := by simp [Inside]
  have e3 : ∀ v a b, Inside v (some a, some b) ↔ a < v ∧ v < b := by simp [Inside]
  cases f with
  | simple s =>
    cases s <;> simp only [startVals, bounds, List.forall₂_cons, List.forall₂_nil_right_iff, e1, e2, e3] <;>
      refine_ands
  | _ =>
    simp only [startVals, bounds, List.forall₂_cons, List.forall₂_nil_right_iff, e1, e2, e3]
    refine_ands

/-- the bounds of HyperGeometric are those for its own start value -/
example : (startVals (.simple .hyperGeometric)).lookup "N" = some 50 := rfl

/-- **C98**: a distribution of any family made with its start values exists, is frozen, and has exactly these values under
these names. -/
theorem start_frozen (f : Family) : ∃ o, startObj f = .ok o ∧ o.frozen = true ∧
    o.names = (startVals f).map Prod.fst ∧ o.params = some ((startVals f).map fun p => some p.2) := by
  have i1 : int64 10 = 10 := by unfold int64; norm_num
  have i2 : int64 5 = 5 := by unfold int64; norm_num
  have i3 : int64 50 = 50 := by unfold int64; norm_num
  have i4 : int64 20 = 20 := by unfold int64; norm_num
  have i5 : ((⌊(-2 : ℝ)⌋ : ℤ) : ℝ) = -2 := by norm_num
  cases f with
  | simple s =>
    cases s <;> simp [startObj, construct, parametrize, simpleParam, simpleFam, startVals, kwOf, List.lookup, allNotNone,
      simpleUpdate, Obj.setAll, Obj.set, i1, i2, i3, i4, i5]
  | _ =>
    simp [startObj, construct, parametrize, startVals, kwOf, List.lookup, allNotNone, anyNotNone, Obj.setAll, Obj.set,
      asymLaplaceParam, bernoulliParam, betaParam, betaScaledParam, exponentialParam, gammaLikeParam, halfNormalParam,
      halfStudentTParam, kumaraswamyParam, normalParam, nbParam, riceParam, skewNormalParam, skewStudentTParam,
      studentTParam, waldParam, zinbParam, asymLaplaceUpdate, bernoulliUpdate, betaUpdate, betaScaledUpdate,
      exponentialUpdate, gammaUpdate, invGammaUpdate, halfNormalUpdate, halfStudentTUpdate, kumaraswamyUpdate,
      normalUpdate, nbUpdate, riceUpdate, skewNormalUpdate, skewStudentTUpdate, studentTUpdate, waldUpdate, zinbUpdate,
      pyAnd]

/-- **C98**: the numerical moment matching starts at the same values: `_update` accepts them in any state. -/
theorem start_update (f : Family) (o : Obj) : ∃ o', update f ((startVals f).map Prod.snd) o = .ok o' ∧
    o'.frozen = true := by
  cases f with
  | simple s => cases s <;> exact ⟨_, rfl, rfl⟩
  | _ => exact ⟨_, rfl, rfl⟩

/-- **C98**: of the names in the catalogue exactly these three have no start values. -/
theorem start_missing (n : String) (h : n.toList ∈ Explorer.distNames) :
    n ∉ tableKeys ↔ n = "MvNormal" ∨ n = "Mixture" ∨ n = "Hurdle" := by
  simp only [Explorer.distNames, List.mem_map] at h
  obtain ⟨m, hm, e⟩ := h
  have : m = n := String.toList_injective e
  subst this
  revert m
  simp only [tableKeys]
  intro m hm _
  fin_cases hm <;> decide

/-- the families with parameters called like the bounds of a truncation -/
def HasBounds (f : Family) : Prop :=
  f = .betaScaled ∨ f = .simple .discreteUniform ∨ f = .simple .triangular ∨ f = .simple .truncatedNormal ∨
    f = .simple .uniform

/-- **C98**: `plot_interactive` of a Truncated or Censored that is not frozen, of any other family: the base gets its start
values, and the wrapper these and the bounds -10 and 10. -/
theorem start_wrapped_partial (k : Wrapper.Kind) (hk : k ≠ .hurdle) (f : Family) (hf : ¬ HasBounds f) (base : Obj)
    (hn : base.names = (startVals f).map Prod.fst) :
    ∃ w, startWrapped k f base = .ok w ∧ w.frozen = true ∧ w.base.frozen = true ∧
      w.base.params = some ((startVals f).map fun p => some p.2) ∧
      w.names = (startVals f).map Prod.fst ++ ["lower", "upper"] ∧
      w.params = ((startVals f).map fun p => some (p.2 : EReal)) ++ [some ((-10 : ℝ) : EReal), some ((10 : ℝ) : EReal)] := by
  have i1 : int64 10 = 10 := by unfold int64; norm_num
  have i2 : int64 5 = 5 := by unfold int64; norm_num
  have i3 : int64 50 = 50 := by unfold int64; norm_num
  have i4 : int64 20 = 20 := by unfold int64; norm_num
  have hown : ∀ own, Wrapper.ownArgs k own =
      [("lower", some ((own "lower").getD ⊥)), ("upper", some ((own "upper").getD ⊤))] := by
    intro own
    cases k
    · rfl
    · rfl
    · exact absurd rfl hk
  unfold startWrapped Wrapper.wrapParam
  simp only [hown]
  cases f with
  | simple s =>
    cases s <;> (try (exfalso; apply hf; simp [HasBounds]; done)) <;>
    simp [parametrize, simpleParam, simpleFam, startVals, List.lookup, allNotNone, Wrapper.kwargsOf,
      simpleUpdate, Obj.setAll, Obj.set, i1, i2, i3, i4, hn, Spec.args, Spec.ways, Spec.Way.plain]
  | _ =>
    first
    | (exfalso; apply hf; simp [HasBounds]; done)
    | simp [parametrize, startVals, List.lookup, allNotNone, anyNotNone, Obj.setAll, Obj.set, Wrapper.kwargsOf,
        asymLaplaceParam, bernoulliParam, betaParam, betaScaledParam, exponentialParam, gammaLikeParam, halfNormalParam,
        halfStudentTParam, kumaraswamyParam, normalParam, nbParam, riceParam, skewNormalParam, skewStudentTParam,
        studentTParam, waldParam, zinbParam, asymLaplaceUpdate, bernoulliUpdate, betaUpdate, betaScaledUpdate,
        exponentialUpdate, gammaUpdate, invGammaUpdate, halfNormalUpdate, halfStudentTUpdate, kumaraswamyUpdate,
        normalUpdate, nbUpdate, riceUpdate, skewNormalUpdate, skewStudentTUpdate, studentTUpdate, waldUpdate, zinbUpdate,
        pyAnd, hn, Spec.args, Spec.ways, Spec.Way.plain]

/-- a base of another family, not yet frozen -/
example : ¬ HasBounds .normal ∧ ∃ base, construct .normal (fun _ => none) = .ok base ∧
    base.names = (startVals .normal).map Prod.fst := by
  refine ⟨by simp [HasBounds], ?_⟩
  simp [construct, parametrize, normalParam, startVals, Obj.setAll, Obj.set, allNotNone]

/-- **C98**: of the five families with bounds of their own these are taken for those of the wrapper, and the result is not a
distribution: it is not frozen, or its base is not, or names and values do not match. -/
theorem start_wrapped_bounds (k : Wrapper.Kind) (hk : k ≠ .hurdle) (f : Family) (hf : HasBounds f) (base : Obj)
    (hb : construct f (fun _ => none) = .ok base) (w : Wrapper.Wrapped) (hw : startWrapped k f base = .ok w) :
    ¬ (w.frozen = true ∧ w.base.frozen = true ∧ w.params.length = w.names.length) := by
  have hown : ∀ own, Wrapper.ownArgs k own =
      [("lower", some ((own "lower").getD ⊥)), ("upper", some ((own "upper").getD ⊤))] := by
    intro own
    cases k
    · rfl
    · rfl
    · exact absurd rfl hk
  unfold startWrapped Wrapper.wrapParam at hw
  simp only [hown] at hw
  rcases hf with rfl | rfl | rfl | rfl | rfl
  · simp [construct, betaScaledParam] at hb
    subst hb
    simp [startVals, List.lookup, Wrapper.kwargsOf, allNotNone, Spec.args, Spec.ways, parametrize, betaScaledParam] at hw
    subst hw
    simp
  all_goals
    simp [construct, parametrize, simpleParam, simpleFam, allNotNone, Obj.setAll, Obj.set, blank] at hb
    subst hb
    simp [startVals, List.lookup, Wrapper.kwargsOf, allNotNone, Spec.args, Spec.ways, Spec.Way.plain, parametrize,
      simpleParam, simpleFam, Obj.setAll, Obj.set] at hw
    subst hw
    simp

example : HasBounds (.simple .triangular) ∧ ∃ base w, construct (.simple .triangular) (fun _ => none) = .ok base ∧
    startWrapped .truncated (.simple .triangular) base = .ok w := by
  refine ⟨by simp [HasBounds], simpleParam (simpleFam .triangular) (fun _ => none) blank, ?_⟩
  · have : ∃ w, startWrapped .truncated (.simple .triangular)
        (simpleParam (simpleFam .triangular) (fun _ => none) blank) = .ok w := by
      simp [startWrapped, Wrapper.wrapParam, startVals, List.lookup, Wrapper.kwargsOf, allNotNone, Spec.args, Spec.ways,
        Spec.Way.plain, parametrize]
    obtain ⟨w, hw⟩ := this
    exact ⟨w, rfl, hw⟩

/-- **C98**: the last two values of the wrapper are then the bounds of the base, and every start value is used once. -/
theorem start_wrapped_taken (k : Wrapper.Kind) (hk : k ≠ .hurdle) (f : Family) (hf : HasBounds f) (base : Obj)
    (hb : construct f (fun _ => none) = .ok base) (w : Wrapper.Wrapped) (hw : startWrapped k f base = .ok w) :
    ∃ (pre : List (Option EReal)) (lo hi : ℝ), (startVals f).lookup "lower" = some lo ∧
      (startVals f).lookup "upper" = some hi ∧ w.params = pre ++ [some (lo : EReal), some (hi : EReal)] ∧
      (pre = (((startVals f).filter fun p => p.1 ≠ "lower" ∧ p.1 ≠ "upper").map fun p => some (p.2 : EReal)) ∨
        pre = [none, none]) := by
  have hown : ∀ own, Wrapper.ownArgs k own =
      [("lower", some ((own "lower").getD ⊥)), ("upper", some ((own "upper").getD ⊤))] := by
    intro own
    cases k
    · rfl
    · rfl
    · exact absurd rfl hk
  unfold startWrapped Wrapper.wrapParam at hw
  simp only [hown] at hw
  rcases hf with rfl | rfl | rfl | rfl | rfl
  · simp [construct, betaScaledParam] at hb
    subst hb
    simp [startVals, List.lookup, Wrapper.kwargsOf, allNotNone, Spec.args, Spec.ways, parametrize, betaScaledParam] at hw
    subst hw
    exact ⟨[some (2 : ℝ), some (2 : ℝ)], -1, 2, rfl, rfl, by simp, .inl (by simp [startVals])⟩
  all_goals
    simp [construct, parametrize, simpleParam, simpleFam, allNotNone, Obj.setAll, Obj.set, blank] at hb
    subst hb
    simp [startVals, List.lookup, Wrapper.kwargsOf, allNotNone, Spec.args, Spec.ways, Spec.Way.plain, parametrize,
      simpleParam, simpleFam, Obj.setAll, Obj.set] at hw
    subst hw
  · exact ⟨[none, none], -2, 2, rfl, rfl, by simp, .inr rfl⟩
  · exact ⟨[some (0 : ℝ)], -2, 2, rfl, rfl, by simp, .inl (by simp [startVals])⟩
  · exact ⟨[some (0 : ℝ), some (1 : ℝ)], -2, 3, rfl, rfl, by simp, .inl (by simp [startVals])⟩
  · exact ⟨[none, none], 0, 1, rfl, rfl, by simp, .inr rfl⟩

/-- **C98**: start values that bound the support are in order, and the peak of a Triangular is between them. -/
theorem start_ordered (f : Family) (lo hi : ℝ) (h1 : (startVals f).lookup "lower" = some lo)
    (h2 : (startVals f).lookup "upper" = some hi) :
    lo < hi ∧ ∀ c, (startVals f).lookup "c" = some c → lo < c ∧ c < hi := by
  cases f with
  | simple s =>
    cases s <;> simp [startVals, List.lookup] at h1 h2 ⊢ <;> subst h1 h2 <;> norm_num
  | _ =>
    simp [startVals, List.lookup] at h1 h2 ⊢ <;> subst h1 h2 <;> norm_num

/-- **C98**: the slider of every parameter of every family can show the start value. -/
theorem start_sliders (round : ℝ → ℤ → ℝ) (hr : Rounds round) (f : Family) :
    List.Forall₂ (fun p b => (Slider.generateRange round p.2 b.1 b.2).1 ≤ p.2 ∧
      p.2 ≤ (Slider.generateRange round p.2 b.1 b.2).2.1) (startVals f) (bounds 50 f) := by
  refine List.Forall₂.imp ?_ (start_inside f)
  rintro ⟨n, v⟩ ⟨l, u⟩ ⟨h1, h2⟩
  simp only at h1 h2 ⊢
  by_cases h0 : v = 0
  · subst h0
    rw [slider_range_zero]
    norm_num
  · obtain ⟨a, b, _⟩ := slider_range_partial round hr v l u h0 (fun x hx => (h1 x hx).le) (fun x hx => (h2 x hx).le)
      _ _ _ rfl
    exact ⟨a, b⟩

/-! ## What is drawn -/

/-- the three kinds of the documentation -/
def drawnName : Drawn → String
  | .pdf => "pdf" | .cdf => "cdf" | .ppf => "ppf"

/-- **C98**: `plot_interactive` of a univariate distribution or a MvNormal draws the function asked for, with each of the
documented limits. -/
theorem interactive_draws (d : Drawn) (lim : Lim) (h : lim ≠ .other) :
    univariate (drawnName d) lim = .ok (some d) ∧ mvnormal (drawnName d) lim = .ok (some d) := by
  cases d <;> cases lim <;> first | exact absurd rfl h | exact ⟨rfl, rfl⟩

/-- **C98**: any other kind draws nothing; a univariate distribution raises unless the limits are automatic. -/
theorem interactive_other (kind : String) (h : ∀ d, kind ≠ drawnName d) (lim : Lim) :
    univariate kind lim = (if lim = .auto then .ok none else .error .nameError) ∧ mvnormal kind lim = .ok none ∧
      dirichlet kind lim = .ok none := by
  have h1 := h .pdf
  have h2 := h .cdf
  have h3 := h .ppf
  simp only [drawnName] at h1 h2 h3
  simp [univariate, mvnormal, dirichlet, h1, h2, h3]

/-- **C98**: of a Dirichlet the density and the distribution function are drawn as asked for … -/
theorem interactive_dirichlet_partial (d : Drawn) (hd : d ≠ .ppf) (lim : Lim) (h : lim ≠ .other) :
    dirichlet (drawnName d) lim = .ok (some d) := by
  cases d <;> cases lim <;> first | exact absurd rfl h | exact absurd rfl hd | rfl

/-- **C98**: … but instead of the quantile function the distribution function is drawn. -/
theorem interactive_dirichlet_ppf (lim : Lim) (h : lim ≠ .other) : dirichlet "ppf" lim = .ok (some .cdf) := by
  cases lim <;> first | exact absurd rfl h | rfl

/-- **C98**: the sliders of a Categorical given by `p` change `p`, and nothing is drawn beyond a total of one; -/
theorem interactive_categorical (values : List ℝ) :
    (values.sum ≤ 1 → categorical "p".toList values = .ok (some ("p".toList, values))) ∧
    (1 < values.sum → categorical "p".toList values = .ok none) := by
  constructor
  · intro h
    unfold categorical
    rw [if_neg (by linarith)]
    rfl
  · intro h
    unfold categorical
    rw [if_pos h]

example : ([0.5, 0.1, 0.4] : List ℝ).sum ≤ 1 := by norm_num

/-- **C98**: given by `logit_p` it cannot be explored: the name is cut at the underscore. -/
theorem interactive_categorical_logit (values : List ℝ) (h : values.sum ≤ 1) :
    categorical "logit_p".toList values = .error .typeError := by
  unfold categorical
  rw [if_neg (by linarith)]
  rfl

end Verif.Props
