import Verif.Lemmas.ParetoBest
import Verif.Props.Widest

/-!
# maxent for Pareto (C129)
-/

namespace Verif.Props
open MeasureTheory Verif Verif.Param Verif.Optim Verif.NumFit Verif.Modifier Verif.Spec Verif.Lemmas.ParetoBest

private theorem inside_reach {a m l u p : ℝ} (ha : 0 < a) (hm : 0 < m) (hl : 0 ≤ l) (hlm : l ≤ m) (h0 : 0 < p) (h1 : p < 1)
    (hlu : l < u) (hmass : massOf (paretoPdf a m) l u = p) :
    m < u ∧ 0 < Real.log (u / m) ∧ a = -Real.log (1 - p) / Real.log (u / m) := by
  have hmu : m ≤ u := by
    by_contra hc
    rw [mass ha hm hlu.le, if_pos (not_le.1 hc)] at hmass
    linarith
  rw [mass_inside ha hl hlm hm hmu] at hmass
  have e : a * Real.log (u / m) = -Real.log (1 - p) := by
    have : 1 - p = Real.exp (-(a * Real.log (u / m))) := by linarith
    rw [this, Real.log_exp]; ring
  have hc := c_pos h0 h1
  have ht : 0 < Real.log (u / m) := by
    by_contra hneg
    have := mul_nonpos_of_nonneg_of_nonpos ha.le (not_lt.1 hneg)
    linarith
  refine ⟨?_, ht, by rw [← e]; field_simp⟩
  rcases hmu.lt_or_eq with h | h
  · exact h
  · rw [h, div_self (by rw [← h]; exact hm.ne'), Real.log_one] at ht
    exact absurd ht (lt_irrefl _)

private theorem at_reach {l u p t : ℝ} (hu : 0 < u) (hl : 0 ≤ l) (ht : 0 < t) (hlt : l ≤ u * Real.exp (-t)) (h0 : 0 < p) (h1 : p < 1) :
    massOf (paretoPdf (-Real.log (1 - p) / t) (u * Real.exp (-t))) l u = p ∧
    entropyOf (paretoPdf (-Real.log (1 - p) / t) (u * Real.exp (-t))) = Real.log u + level (-Real.log (1 - p)) t := by
  have hc := c_pos h0 h1
  have hm : 0 < u * Real.exp (-t) := mul_pos hu (Real.exp_pos _)
  have e : t = Real.log (u / (u * Real.exp (-t))) := by
    rw [div_mul_eq_div_div, div_self hu.ne', one_div, Real.log_inv, Real.log_exp, neg_neg]
  refine ⟨?_, entropy_inside hc ht hm hu e⟩
  have hle : u * Real.exp (-t) ≤ u := by
    have : Real.exp (-t) ≤ 1 := by rw [Real.exp_le_one_iff]; linarith
    nlinarith
  rw [mass_inside (by positivity) hl hlt hm hle, ← e, div_mul_cancel₀ _ ht.ne', neg_neg, Real.exp_log (by linarith)]
  ring

/-- **C129**: among the Pareto distributions that give `[l, u]` the mass `p` there is exactly one with the largest entropy. -/
theorem pareto_best (l u p : ℝ) (hl : 0 < l) (hlu : l < u) (h0 : 0 < p) (h1 : p < 1) :
    0 < paretoShape l u p ∧ l ≤ paretoStart l u p ∧ paretoStart l u p < u ∧
    massOf (paretoPdf (paretoShape l u p) (paretoStart l u p)) l u = p ∧
    ∀ a m : ℝ, 0 < a → 0 < m → massOf (paretoPdf a m) l u = p → (a, m) ≠ (paretoShape l u p, paretoStart l u p) →
      entropyOf (paretoPdf a m) < entropyOf (paretoPdf (paretoShape l u p) (paretoStart l u p)) := by
  have hu : 0 < u := hl.trans hlu
  obtain ⟨hs, hsL⟩ := reach_pos hl hlu h0 h1
  have hc := c_pos h0 h1
  have hL : 0 < Real.log (u / l) := hs.trans_le hsL
  have start : ∀ t, t ≤ Real.log (u / l) → l ≤ u * Real.exp (-t) := by
    intro t ht
    have : Real.exp (-Real.log (u / l)) ≤ Real.exp (-t) := Real.exp_le_exp.2 (by linarith)
    rw [← Real.log_inv, Real.exp_log (by positivity), inv_div, div_le_iff₀ hu] at this
    linarith
  have hlt := start _ hsL
  obtain ⟨m1, e1⟩ := at_reach hu hl.le hs hlt h0 h1
  refine ⟨div_pos hc hs, hlt, ?_, m1, fun a m ha hm hmass hne => ?_⟩
  · unfold paretoStart
    have : Real.exp (-paretoReach l u p) < 1 := by rw [Real.exp_lt_one_iff]; linarith
    nlinarith
  have inner : ∀ a m : ℝ, 0 < a → 0 < m → l ≤ m → massOf (paretoPdf a m) l u = p →
      (a, m) ≠ (paretoShape l u p, paretoStart l u p) →
      entropyOf (paretoPdf a m) < entropyOf (paretoPdf (paretoShape l u p) (paretoStart l u p)) := by
    intro a m ha hm hlm hmass hne
    obtain ⟨hmu, ht, e⟩ := inside_reach ha hm hl.le hlm h0 h1 hlu hmass
    have em : m = u * Real.exp (-Real.log (u / m)) := by
      rw [← Real.log_inv, Real.exp_log (by positivity), inv_div]; field_simp
    have hne' : Real.log (u / m) ≠ paretoReach l u p := by
      intro h
      refine hne (Prod.ext ?_ ?_)
      · rw [e, h]; rfl
      · rw [em, h]; rfl
    have htL : Real.log (u / m) ≤ Real.log (u / l) :=
      Real.log_le_log (by positivity) (div_le_div_of_nonneg_left hu.le hl hlm)
    have h3 : entropyOf (paretoPdf (paretoShape l u p) (paretoStart l u p)) = _ := e1
    rw [h3, e, entropy_inside hc ht hm hu rfl]
    exact add_lt_add_right (level_best hl hlu h0 h1 ht htL hne') _
  rcases le_or_gt l m with h | h
  · exact inner a m ha hm h hmass hne
  · refine (below ha hm h hlu h0 h1 hmass).trans_le ?_
    by_cases heq : (-Real.log (1 - p) / Real.log (u / l), l) = (paretoShape l u p, paretoStart l u p)
    · obtain ⟨q1, q2⟩ := Prod.mk.inj heq
      rw [← q2, ← q1]
    · refine (inner _ l (div_pos hc hL) hl le_rfl ?_ heq).le
      rw [mass_inside (div_pos hc hL) hl.le le_rfl hl hlu.le, div_mul_cancel₀ _ hL.ne', neg_neg, Real.exp_log (by linarith)]
      ring

/-- **C129**: no Pareto distribution gives a bounded interval the mass one. -/
theorem pareto_below_one (l u a m : ℝ) (hlu : l ≤ u) (ha : 0 < a) (hm : 0 < m) : massOf (paretoPdf a m) l u < 1 := by
  rw [mass ha hm hlu]
  split_ifs with h1 h2
  · exact one_pos
  · have : 0 < (m / u) ^ a := Real.rpow_pos_of_pos (div_pos hm (hm.trans_le (not_lt.1 h1))) _
    linarith
  · have hu : 0 < u := hm.trans_le (not_lt.1 h1)
    have hl : 0 < l := hm.trans_le (not_lt.1 h2)
    have h3 : 0 < (m / u) ^ a := Real.rpow_pos_of_pos (div_pos hm hu) _
    have h4 : (m / l) ^ a ≤ 1 := Real.rpow_le_one (by positivity) (by rw [div_le_one hl]; exact not_lt.1 h2) ha.le
    linarith

/-- **C129**: the best distribution leaves values of the interval out, those below its smallest value, exactly if the mass is
above `1 - 1 / e` and `u / l` large enough.  It is then the same for every lower end. -/
theorem pareto_leaves_out (l u p : ℝ) (hl : 0 < l) (hlu : l < u) (h0 : 0 < p) (h1 : p < 1) :
    (l < paretoStart l u p ↔ 1 < -Real.log (1 - p) ∧ -Real.log (1 - p) / (-Real.log (1 - p) - 1) < Real.log (u / l)) ∧
    (l < paretoStart l u p →
      paretoStart l u p = u * Real.exp (-(-Real.log (1 - p) / (-Real.log (1 - p) - 1))) ∧
      paretoShape l u p = -Real.log (1 - p) - 1 ∧
      massOf (paretoPdf (paretoShape l u p) (paretoStart l u p)) l (paretoStart l u p) = 0) := by
  have hu : 0 < u := hl.trans hlu
  have hc := c_pos h0 h1
  obtain ⟨hs, hsL⟩ := reach_pos hl hlu h0 h1
  have key : l < paretoStart l u p ↔ paretoReach l u p < Real.log (u / l) := by
    unfold paretoStart
    rw [← Real.exp_lt_exp (x := paretoReach l u p), Real.exp_log (by positivity), Real.exp_neg, ← div_eq_mul_inv,
      lt_div_iff₀ (Real.exp_pos _), lt_div_iff₀ hl, mul_comm]
  have key2 : paretoReach l u p < Real.log (u / l) ↔
      1 < -Real.log (1 - p) ∧ -Real.log (1 - p) / (-Real.log (1 - p) - 1) < Real.log (u / l) := by
    unfold paretoReach
    split_ifs with h
    · simp [h]
    · simp [not_le.1 h]
  refine ⟨key.trans key2, fun h => ?_⟩
  obtain ⟨hc1, hc2⟩ := (key.trans key2).1 h
  have e : paretoReach l u p = -Real.log (1 - p) / (-Real.log (1 - p) - 1) := by
    unfold paretoReach
    rw [if_neg (not_le.2 hc1), min_eq_right hc2.le]
  have hd : 0 < -Real.log (1 - p) - 1 := by linarith
  refine ⟨by unfold paretoStart; rw [e], ?_, ?_⟩
  · unfold paretoShape
    rw [e, div_div_cancel₀ hc.ne']
  · have hsh : 0 < paretoShape l u p := div_pos hc hs
    have hst : 0 < paretoStart l u p := hl.trans h
    rw [mass hsh hst h.le, if_neg (lt_irrefl _), if_pos h, div_self hst.ne', Real.one_rpow, sub_self]

/-- **C129**: an interval that starts at zero.  Above `1 - 1 / e` there is exactly one best distribution; up to that mass there
is none, the entropy is unbounded. -/
theorem pareto_from_zero (u p : ℝ) (hu : 0 < u) (h0 : 0 < p) (h1 : p < 1) :
    (1 < -Real.log (1 - p) →
      massOf (paretoPdf (-Real.log (1 - p) - 1) (u * Real.exp (-(-Real.log (1 - p) / (-Real.log (1 - p) - 1))))) 0 u = p ∧
      ∀ a m : ℝ, 0 < a → 0 < m → massOf (paretoPdf a m) 0 u = p →
        (a, m) ≠ (-Real.log (1 - p) - 1, u * Real.exp (-(-Real.log (1 - p) / (-Real.log (1 - p) - 1)))) →
        entropyOf (paretoPdf a m) <
          entropyOf (paretoPdf (-Real.log (1 - p) - 1) (u * Real.exp (-(-Real.log (1 - p) / (-Real.log (1 - p) - 1)))))) ∧
    (-Real.log (1 - p) ≤ 1 → ∀ B : ℝ, ∃ a m : ℝ, 0 < a ∧ 0 < m ∧ massOf (paretoPdf a m) 0 u = p ∧
      B < entropyOf (paretoPdf a m)) := by
  have hc := c_pos h0 h1
  refine ⟨fun hc1 => ?_, fun hc1 B => ?_⟩
  · have hd : 0 < -Real.log (1 - p) - 1 := by linarith
    set t := -Real.log (1 - p) / (-Real.log (1 - p) - 1) with ht
    have ht0 : 0 < t := div_pos hc hd
    have esh : -Real.log (1 - p) - 1 = -Real.log (1 - p) / t := by rw [ht, div_div_cancel₀ hc.ne']
    have hpos : 0 < u * Real.exp (-t) := mul_pos hu (Real.exp_pos _)
    rw [esh]
    refine ⟨(at_reach hu le_rfl ht0 hpos.le h0 h1).1, fun a m ha hm hmass hne => ?_⟩
    -- compare on an interval that starts below both
    set l := min m (u * Real.exp (-t)) / 2 with hl
    have hmin : 0 < min m (u * Real.exp (-t)) := lt_min hm hpos
    have hl0 : 0 < l := by rw [hl]; linarith
    have hlm : l < m := by rw [hl]; linarith [min_le_left m (u * Real.exp (-t))]
    have hlt : l < u * Real.exp (-t) := by rw [hl]; linarith [min_le_right m (u * Real.exp (-t))]
    have hexp : Real.exp (-t) < 1 := by rw [Real.exp_lt_one_iff]; linarith
    have hlu : l < u := by nlinarith
    have hmu := (inside_reach ha hm le_rfl hm.le h0 h1 hu hmass).1
    have hmass' : massOf (paretoPdf a m) l u = p := by
      rw [mass_inside ha hl0.le hlm.le hm hmu.le, ← hmass, mass_inside ha le_rfl hm.le hm hmu.le]
    have e : paretoReach l u p = t := by
      unfold paretoReach
      rw [if_neg (not_le.2 hc1), min_eq_right]
      rw [← ht]
      rw [Real.le_log_iff_exp_le (by positivity), le_div_iff₀ hl0]
      have := mul_le_mul_of_nonneg_right hlt.le (Real.exp_pos t).le
      rw [mul_assoc, ← Real.exp_add] at this
      simp only [neg_add_cancel, Real.exp_zero, mul_one] at this
      linarith
    have := (pareto_best l u p hl0 hlu h0 h1).2.2.2.2 a m ha hm hmass'
    unfold paretoShape paretoStart at this
    rw [e] at this
    exact this hne
  · set c := -Real.log (1 - p) with hcd
    -- the entropy is at least `log u + log t - log c + 1`
    set t := Real.exp (B + 1 - Real.log u + Real.log c) with ht
    have ht0 : 0 < t := Real.exp_pos _
    have hpos : 0 < u * Real.exp (-t) := mul_pos hu (Real.exp_pos _)
    obtain ⟨g1, g2⟩ := at_reach hu le_rfl ht0 hpos.le h0 h1
    refine ⟨c / t, u * Real.exp (-t), div_pos hc ht0, hpos, g1, ?_⟩
    rw [g2]
    unfold level
    have : t ≤ t / c := by rw [le_div_iff₀ hc]; nlinarith
    rw [← hcd]
    have hlog : Real.log t = B + 1 - Real.log u + Real.log c := by rw [ht, Real.log_exp]
    linarith

/-! ### maxent -/

private theorem pareto_candidate (o : Obj) (ho : construct (.simple .pareto) (fun _ => none) = .ok o) (x : List ℝ)
    (hx : ParetoGood x) (o1 : Obj) :
    ∃ o2, applyCandidate (.simple .pareto) o.names (getFixedParams o).1 (getFixedParams o).2 x o1 = .ok o2 ∧
      law (.simple .pareto) o2 = x.map some := by
  obtain ⟨a, m, rfl, -, -⟩ := hx
  simp [construct, parametrize, simpleParam, simpleFam, allNotNone, blank, Obj.setAll, Obj.set,
    Except.ok_bind', Except.pure_eq] at ho
  subst ho
  simp [applyCandidate, getFixedParams, splitStep, getParams, getParamsFrom, Function.update, Except.map, Except.ok_bind',
    parametrize, kwCall, List.lookup, simpleParam, simpleFam, simpleUpdate, allNotNone, Obj.setAll, Obj.set,
    Except.pure_eq, List.zipIdx, law, lawAttrs]

/-- **C129**: maxent for Pareto().  Let the runs completed before the first failure end at proper distributions and report their
entropies, and let one of them end at the best distribution.  Then the one returned has the mass up to 1e-4 and at least the
entropy of the best; if the runs that pass the check have exactly the mass, it is the best. -/
theorem maxent_pareto (o : Obj) (ho : construct (.simple .pareto) (fun _ => none) = .ok o)
    (b : List ℝ → Base) (hb : ∀ x, ParetoGood x → (b x).discrete = false ∧ (b x).law = ofPdf (paretoOf x))
    (l u p : ℝ) (hl : 0 < l) (hlu : l < u) (h0 : 0 < p) (h1 : p < 1)
    (err : List ℝ → Option ℝ) (herr : ∀ x, ParetoGood x → err x = some |probBound (b x) l u p none|)
    (done : List Opt) (rest : List (Except Err Opt)) (hrest : ∀ r, rest.head? = some r → ∃ e, r = .error e)
    (hdone : ∀ r ∈ done, ParetoGood r.x ∧ r.value = some ((-entropyOf (paretoOf r.x) : ℝ) : EReal))
    (hopt : ∃ r ∈ done, r.x = [paretoShape l u p, paretoStart l u p])
    (o1 o2 : Obj) (r : Opt)
    (h : optimizeMaxEnt (.simple .pareto) o.names (getFixedParams o).1 (getFixedParams o).2 err (done.map .ok ++ rest) o1 =
      .ok (r, o2)) :
    ∃ a m : ℝ, 0 < a ∧ 0 < m ∧ law (.simple .pareto) o2 = [some a, some m] ∧ |massOf (paretoPdf a m) l u - p| < 1 / 10000 ∧
      entropyOf (paretoPdf (paretoShape l u p) (paretoStart l u p)) ≤ entropyOf (paretoPdf a m) ∧
      ((∀ r' ∈ done, |massOf (paretoOf r'.x) l u - p| < 1 / 10000 → massOf (paretoOf r'.x) l u = p) →
        (a, m) = (paretoShape l u p, paretoStart l u p)) := by
  have herr' : ∀ x, ParetoGood x → err x = some |massOf (paretoOf x) l u - p| := by
    intro x hx
    obtain ⟨e1, e2⟩ := hb x hx
    rw [herr x hx, constraint_is_mass _ _ _ _ hlu.le (by simp [e1]), e2]
    rfl
  obtain ⟨-, -, -, w1, w2⟩ := pareto_best l u p hl hlu h0 h1
  obtain ⟨h2, h3⟩ := maxent_leaves_selected _ _ _ _ _ _ _ _ _ h
  obtain ⟨r0, hr0, hx0⟩ := hopt
  obtain ⟨hg0, hv0⟩ := hdone r0 hr0
  have e0 : paretoOf r0.x = paretoPdf (paretoShape l u p) (paretoStart l u p) := by rw [hx0]; rfl
  have hfeas : Feasible err r0 ((-entropyOf (paretoOf r0.x) : ℝ) : EReal) :=
    ⟨⟨_, herr' _ hg0, by rw [e0, w1, sub_self, abs_zero]; norm_num⟩, hv0⟩
  obtain ⟨i, r', v, e1, e2, e3, e4, -⟩ := maxent_selects err done rest hrest r0 hr0 _ hfeas (EReal.coe_ne_top _)
  rw [h2] at e1
  simp only [Except.ok.injEq] at e1
  subst e1
  have hrd := List.mem_of_getElem? e2
  obtain ⟨hg, hv⟩ := hdone r hrd
  obtain ⟨⟨e, he, hlt⟩, hv'⟩ := e3
  rw [herr' _ hg] at he
  simp only [Option.some.injEq] at he
  subst he
  rw [hv] at hv'
  simp only [Option.some.injEq] at hv'
  have hle := e4 r0 hr0 _ hfeas
  rw [← hv', EReal.coe_le_coe_iff, neg_le_neg_iff, e0] at hle
  obtain ⟨o3, ho3, hlaw⟩ := pareto_candidate o ho r.x hg o1
  rw [h3] at ho3
  simp only [Except.ok.injEq] at ho3
  subst ho3
  obtain ⟨a, m, hx, ha, hm⟩ := hg
  have ex : paretoOf r.x = paretoPdf a m := by rw [hx]; rfl
  rw [ex] at hlt hle
  refine ⟨a, m, ha, hm, by rw [hlaw, hx]; rfl, hlt, hle, fun hex => ?_⟩
  have hmass := hex r hrd (by rw [ex]; exact hlt)
  rw [ex] at hmass
  by_contra hne
  exact absurd (w2 a m ha hm hmass hne) (not_lt.2 hle)

/-! The hypotheses are met. -/

/-- Pareto distributions as continuous bases -/
noncomputable def paretoBase (x : List ℝ) : Base :=
  open Classical in
  if hx : 0 < x.getD 0 0 ∧ 0 < x.getD 1 0 then
    haveI : IsProbabilityMeasure (volume.withDensity fun y => ENNReal.ofReal (paretoOf x y)) := pdf_prob hx.1 hx.2
    densityBase (paretoOf x) (pdf_meas _ _) (pdf_nonneg hx.1 hx.2) ⊥ ⊤ (by simp)
  else unif 0 1 (by norm_num)

theorem paretoBase_law (x : List ℝ) (hx : ParetoGood x) :
    (paretoBase x).discrete = false ∧ (paretoBase x).law = ofPdf (paretoOf x) := by
  obtain ⟨a, m, rfl, ha, hm⟩ := hx
  unfold paretoBase
  rw [dif_pos ⟨ha, hm⟩]
  exact ⟨rfl, rfl⟩

/-- the runs of `maxent(Pareto(), l, u, p)` end at the best distribution -/
example (l u p : ℝ) (hl : 0 < l) (hlu : l < u) (h0 : 0 < p) (h1 : p < 1) (o1 : Obj) :
    ∃ (o o2 : Obj) (r : Opt) (done : List Opt),
    construct (.simple .pareto) (fun _ => none) = .ok o ∧
    (∀ r ∈ done, ParetoGood r.x ∧ r.value = some ((-entropyOf (paretoOf r.x) : ℝ) : EReal)) ∧
    (∃ r ∈ done, r.x = [paretoShape l u p, paretoStart l u p]) ∧
    optimizeMaxEnt (.simple .pareto) o.names (getFixedParams o).1 (getFixedParams o).2
      (fun x => some |probBound (paretoBase x) l u p none|) (done.map .ok ++ [.error .valueError]) o1 = .ok (r, o2) := by
  obtain ⟨o, ho⟩ : ∃ o, construct (.simple .pareto) (fun _ => none) = .ok o := ⟨_, rfl⟩
  obtain ⟨w1, w2, w3, w4, -⟩ := pareto_best l u p hl hlu h0 h1
  have hg : ParetoGood [paretoShape l u p, paretoStart l u p] := ⟨_, _, rfl, w1, hl.trans_le w2⟩
  set r : Opt := ⟨[paretoShape l u p, paretoStart l u p],
    some ((-entropyOf (paretoOf [paretoShape l u p, paretoStart l u p]) : ℝ) : EReal)⟩ with hr
  obtain ⟨i, r', v, e1, e2, -⟩ := maxent_selects (fun x => some |probBound (paretoBase x) l u p none|) [r]
    [.error .valueError] (by simp) r (by simp) _
    ⟨⟨_, rfl, by
      rw [constraint_is_mass _ _ _ _ hlu.le (fun h => by rw [(paretoBase_law _ hg).1] at h; cases h), (paretoBase_law _ hg).2]
      change |massOf (paretoPdf _ _) l u - p| < _
      rw [show [paretoShape l u p, paretoStart l u p].getD 0 0 = paretoShape l u p from rfl,
        show [paretoShape l u p, paretoStart l u p].getD 1 0 = paretoStart l u p from rfl, w4, sub_self, abs_zero]
      norm_num⟩, rfl⟩ (EReal.coe_ne_top _)
  have hmem := List.mem_of_getElem? e2
  simp only [List.mem_cons, List.not_mem_nil, or_false] at hmem
  subst hmem
  obtain ⟨o2, ho2, -⟩ := pareto_candidate o ho _ hg o1
  refine ⟨o, o2, r, [r], ho, fun r' hr' => by
    rw [List.mem_singleton] at hr'
    subst hr'
    exact ⟨hg, rfl⟩, ⟨r, by simp, rfl⟩, ?_⟩
  unfold optimizeMaxEnt
  rw [e1]
  simp only [Except.ok_bind']
  rw [ho2]
  rfl

/-- with the mass `1 - exp (-2)` between 1 and 100 the best distribution starts at `100 * exp (-2)`, above 13: it leaves out the
values from 1 to 13 -/
example : paretoStart 1 100 (1 - Real.exp (-2)) = 100 * Real.exp (-2) ∧ paretoShape 1 100 (1 - Real.exp (-2)) = 1 ∧
    13 < paretoStart 1 100 (1 - Real.exp (-2)) := by
  have e : -Real.log (1 - (1 - Real.exp (-2))) = 2 := by rw [sub_sub_cancel, Real.log_exp]; norm_num
  have hx1 : Real.exp 2 < 7.4 := by
    have := Real.exp_one_lt_d9
    have h2 : Real.exp 2 = Real.exp 1 * Real.exp 1 := by rw [← Real.exp_add]; norm_num
    have h3 := Real.exp_pos 1
    rw [h2]; nlinarith
  have hL : 2 < Real.log (100 / 1) := by
    rw [Real.lt_log_iff_exp_lt (by norm_num)]; linarith
  have h1 : 0 < Real.exp (-2) := Real.exp_pos _
  have h2 : Real.exp (-2) < 1 := by rw [Real.exp_lt_one_iff]; norm_num
  obtain ⟨g1, g2⟩ := pareto_leaves_out 1 100 (1 - Real.exp (-2)) (by norm_num) (by norm_num) (by linarith) (by linarith)
  have hlt := g1.2 (by rw [e]; constructor <;> linarith)
  obtain ⟨q1, q2, -⟩ := g2 hlt
  rw [e] at q1 q2
  have q1' : paretoStart 1 100 (1 - Real.exp (-2)) = 100 * Real.exp (-2) := by rw [q1]; norm_num
  refine ⟨q1', by rw [q2]; norm_num, ?_⟩
  rw [q1', Real.exp_neg, ← div_eq_mul_inv, lt_div_iff₀ (Real.exp_pos _)]
  linarith

end Verif.Props
