import Verif.Spec.PeakGiven
import Verif.Lemmas.HalfScale
import Verif.Props.Select

/-!
# Lemmas for C130
-/

namespace Verif.LocScale
open MeasureTheory Verif Verif.Spec Verif.Law Set Filter Topology Verif.Optim Verif.Modifier Verif.Param Verif.Props Verif.HalfScale

variable {g : ℝ → ℝ}

theorem thin_logistic : Thin (logisticPdf 0 1) := by
  intro c x y hc hx hxy
  have e : ∀ x, logisticPdf 0 1 x = 1 / (2 * Real.cosh (x / 2)) ^ 2 := by
    intro x
    unfold logisticPdf
    rw [Real.cosh_eq, mul_div_cancel₀ _ two_ne_zero, sub_zero, div_one, one_mul]
    have h1 := Real.exp_pos (x / 2)
    have h2 : Real.exp (-x) = Real.exp (-(x / 2)) ^ 2 := by rw [sq, ← Real.exp_add]; congr 1; ring
    have h3 : Real.exp (-(x / 2)) = 1 / Real.exp (x / 2) := by rw [Real.exp_neg, one_div]
    rw [h2, h3]
    field_simp
  have hs : ∀ a b : ℝ, 2 * (Real.cosh a * Real.cosh b) = Real.cosh (a + b) + Real.cosh (a - b) := by
    intro a b; rw [Real.cosh_add, Real.cosh_sub]; ring
  have hy := hx.trans hxy
  have k : Real.cosh (c * x / 2) * Real.cosh (y / 2) < Real.cosh (x / 2) * Real.cosh (c * y / 2) := by
    have h1 := hs (c * x / 2) (y / 2)
    have h2 := hs (c * y / 2) (x / 2)
    have a1 : Real.cosh (c * x / 2 + y / 2) < Real.cosh (c * y / 2 + x / 2) := by
      rw [Real.cosh_lt_cosh, abs_of_pos (by nlinarith), abs_of_pos (by nlinarith)]
      nlinarith [mul_pos (sub_pos.2 hc) (sub_pos.2 hxy)]
    have a2 : Real.cosh (c * x / 2 - y / 2) < Real.cosh (c * y / 2 - x / 2) := by
      rw [Real.cosh_lt_cosh, abs_of_pos (show 0 < c * y / 2 - x / 2 by nlinarith), abs_lt]
      constructor <;> nlinarith [mul_pos (sub_pos.2 hc) hx, mul_pos (sub_pos.2 hc) hy]
    linarith
  have p : ∀ a : ℝ, 0 < Real.cosh a := Real.cosh_pos
  rw [e, e, e, e, div_mul_div_comm, div_mul_div_comm]
  refine div_lt_div_of_pos_left (by norm_num) ?_ ?_
  · have := p (y / 2); have := p (c * x / 2); positivity
  · have h1 : 0 < Real.cosh (c * x / 2) * Real.cosh (y / 2) := mul_pos (p _) (p _)
    have : (Real.cosh (c * x / 2) * Real.cosh (y / 2)) ^ 2 < (Real.cosh (x / 2) * Real.cosh (c * y / 2)) ^ 2 := by
      gcongr
    nlinarith

theorem thin_fam (F : PeakFam) (h : F.Ok) : Thin (F.pdf 0 1) := by
  cases F with
  | normal => exact thin_normal
  | laplace => exact thin_laplace
  | logistic => exact thin_logistic
  | cauchy =>
    have : PeakFam.cauchy.pdf 0 1 = studentPdf 1 0 1 := by
      funext x; exact cauchy_student x
    rw [this]; exact thin_student one_pos
  | studentT n => exact thin_student h

/-- the interval on one side of the location -/
theorem mass_side (hg : Peak g) {m s l u : ℝ} (hs : 0 < s) (hm : m < l) (h : l < u) :
    massOf (moved g m s) l u = gap g ((u - m) / (l - m)) ((l - m) / s) / 2 := by
  rw [mass_moved hg m hs h.le]
  unfold gap
  have hlm : l - m ≠ 0 := (sub_pos.2 hm).ne'
  rw [show (u - m) / (l - m) * ((l - m) / s) = (u - m) / s by field_simp, around_twice hg, around_twice hg]
  have := intervalIntegral.integral_add_adjacent_intervals (ii hg 0 ((l - m) / s)) (ii hg ((l - m) / s) ((u - m) / s))
  rw [← this]
  unfold around
  rw [show ((l + u) / 2 - m) / s - (u - l) / (2 * s) = (l - m) / s by field_simp; ring,
    show ((l + u) / 2 - m) / s + (u - l) / (2 * s) = (u - m) / s by field_simp; ring]
  ring

/-- the mirror image -/
theorem mass_mirror (hg : Peak g) {m s l u : ℝ} (hs : 0 < s) (h : l ≤ u) :
    massOf (moved g (l + u - m) s) l u = massOf (moved g m s) l u := by
  rw [mass_moved hg _ hs h, mass_moved hg _ hs h, ← around_neg hg]
  congr 1
  ring

/-- one peak, and two solutions below it -/
theorem gap_two (hg : Peak g) (ht : Thin g) {c : ℝ} (hc : 1 < c) :
    ∃ x₀, 0 < x₀ ∧ (∀ x, 0 < x → x ≠ x₀ → gap g c x < gap g c x₀) ∧
      ∀ q, 0 < q → q < gap g c x₀ → ∃ x₁ x₂, 0 < x₁ ∧ x₁ < x₀ ∧ x₀ < x₂ ∧ ∀ x, 0 < x → (gap g c x = q ↔ x = x₁ ∨ x = x₂) := by
  obtain ⟨x₀, h0, he⟩ := gap_peak hg hc
  obtain ⟨m, a⟩ := gap_at hg ht hc h0 he
  refine ⟨x₀, h0, fun x hx hne => ?_, fun q hq hlt => ?_⟩
  · rcases lt_or_gt_of_ne hne with h | h
    · exact m ⟨hx.le, h.le⟩ ⟨h0.le, le_rfl⟩ h
    · exact a (by simp) h.le h
  · obtain ⟨x, hx, ex⟩ := intermediate_value_Icc h0.le (gap_cont hg c).continuousOn (show q ∈ _ from
      ⟨by rw [gap_zero]; exact hq.le, hlt.le⟩)
    have hx1 : 0 < x := by
      rcases hx.1.lt_or_eq with h' | h'
      · exact h'
      · subst h'; rw [gap_zero] at ex; linarith
    have hx2 : x < x₀ := by
      rcases hx.2.lt_or_eq with h' | h'
      · exact h'
      · subst h'; linarith
    obtain ⟨z, hz⟩ := (((gap_lim hg hc).eventually (gt_mem_nhds hq)).and (Filter.eventually_gt_atTop x₀)).exists
    obtain ⟨y, hy, ey⟩ := intermediate_value_Icc' hz.2.le (gap_cont hg c).continuousOn (show q ∈ _ from ⟨hz.1.le, hlt.le⟩)
    have hy1 : x₀ < y := by
      rcases hy.1.lt_or_eq with h' | h'
      · exact h'
      · rw [← h'] at ey; linarith
    refine ⟨x, y, hx1, hx2, hy1, fun w hw => ⟨fun e => ?_, ?_⟩⟩
    · rcases le_total w x₀ with h' | h'
      · exact .inl (m.injOn ⟨hw.le, h'⟩ ⟨hx1.le, hx2.le⟩ (e.trans ex.symm))
      · exact .inr (a.injOn h' hy1.le (e.trans ey.symm))
    · rintro (rfl | rfl)
      · exact ex
      · exact ey

/-- maxent with one free parameter -/
theorem maxent_one (b : ℝ → Base) (f : ℝ → ℝ → ℝ) (P : ℝ → Prop)
    (hb : ∀ v, P v → (b v).discrete = false ∧ (b v).law = ofPdf (f v)) (l u p : ℝ) (hlu : l < u)
    (err : List ℝ → Option ℝ) (herr : ∀ v, P v → err [v] = some |probBound (b v) l u p none|)
    (done : List Opt) (rest : List (Except Err Opt)) (hrest : ∀ r, rest.head? = some r → ∃ e, r = .error e)
    (ends : List ℝ) (hends : done.map (fun r => r.x) = ends.map fun v => [v])
    (hdone : ∀ r ∈ done, ∃ v, P v ∧ r.x = [v] ∧ r.value = some ((-entropyOf (f v) : ℝ) : EReal))
    (r : Opt) (h1 : selectOpt err (done.map .ok ++ rest) = .ok r) :
    ∃ v, P v ∧ r.x = [v] ∧ Takes (fun v => massOf (f v) l u) (fun v => entropyOf (f v)) p ends v := by
  have herr' : ∀ v, P v → err [v] = some |massOf (f v) l u - p| := by
    intro v hv
    obtain ⟨h1, h2⟩ := hb _ hv
    rw [herr v hv, constraint_is_mass _ _ _ _ hlu.le (by simp [h1]), h2]
    rfl
  have hget : ∀ (i : ℕ) (v : ℝ), ends[i]? = some v ↔ ∃ r' : Opt, done[i]? = some r' ∧ r'.x = [v] := by
    intro i v
    have := congrArg (fun L => L[i]?) hends
    simp only [List.getElem?_map] at this
    constructor
    · intro h
      rw [h] at this
      simpa [eq_comm] using this
    · rintro ⟨r', h, hx⟩
      rw [h, Option.map_some, hx] at this
      cases he : ends[i]? with
      | none => rw [he] at this; cases this
      | some w => rw [he] at this; simpa [eq_comm] using this
  have hmem : ∀ v, v ∈ ends ↔ ∃ r' : Opt, r' ∈ done ∧ r'.x = [v] := by
    intro v
    rw [List.mem_iff_getElem?]
    constructor
    · rintro ⟨i, hi⟩
      obtain ⟨r', h, hx⟩ := (hget i v).1 hi
      exact ⟨r', List.mem_of_getElem? h, hx⟩
    · rintro ⟨r', h, hx⟩
      obtain ⟨i, hi⟩ := List.mem_iff_getElem?.1 h
      exact ⟨i, (hget i v).2 ⟨r', hi, hx⟩⟩
  have hfe : ∀ r' ∈ done, ∀ v', r'.x = [v'] → P v' ∧ (|massOf (f v') l u - p| < 1 / 10000 →
      Feasible err r' ((-entropyOf (f v') : ℝ) : EReal)) := by
    intro r' hr' v' hx
    obtain ⟨v, hv, hx', hval⟩ := hdone r' hr'
    rw [hx] at hx'
    simp only [List.cons.injEq, and_true] at hx'
    subst hx'
    exact ⟨hv, fun hlt => ⟨⟨_, by rw [hx]; exact herr' _ hv, hlt⟩, hval⟩⟩
  have hef : ∀ r' ∈ done, ∀ v', r'.x = [v'] → ∀ w, Feasible err r' w →
      |massOf (f v') l u - p| < 1 / 10000 ∧ w = ((-entropyOf (f v') : ℝ) : EReal) := by
    intro r' hr' v' hx w ⟨⟨e, he, hlt⟩, hval⟩
    obtain ⟨v, hv, hx', hval'⟩ := hdone r' hr'
    rw [hx] at hx'
    simp only [List.cons.injEq, and_true] at hx'
    subst hx'
    rw [hx, herr' _ hv] at he
    simp only [Option.some.injEq] at he
    subst he
    rw [hval'] at hval
    simp only [Option.some.injEq] at hval
    exact ⟨hlt, hval.symm⟩
  by_cases hp : ∃ v' ∈ ends, |massOf (f v') l u - p| < 1 / 10000
  · obtain ⟨v0, hv0, hlt0⟩ := hp
    obtain ⟨r0, hr0, hx0⟩ := (hmem v0).1 hv0
    obtain ⟨i, r', w, e1, e2, e3, e4, e5⟩ :=
      maxent_selects err done rest hrest r0 hr0 _ ((hfe r0 hr0 v0 hx0).2 hlt0) (EReal.coe_ne_top _)
    rw [h1] at e1
    simp only [Except.ok.injEq] at e1
    subst e1
    have hrd := List.mem_of_getElem? e2
    obtain ⟨v, hv, hx, hval⟩ := hdone r hrd
    obtain ⟨hlt, rfl⟩ := hef r hrd v hx w e3
    refine ⟨v, hv, hx, i, (hget i v).2 ⟨r, e2, hx⟩, fun _ => ⟨hlt, fun v' hv' hlt' => ?_, fun j v' hj hv' hlt' => ?_⟩,
      fun hno => absurd hlt0 (not_lt.2 (hno v0 hv0))⟩
    · obtain ⟨r', hr', hx'⟩ := (hmem v').1 hv'
      have := e4 r' hr' _ ((hfe r' hr' v' hx').2 hlt')
      rwa [EReal.coe_le_coe_iff, neg_le_neg_iff] at this
    · obtain ⟨r', hr', hx'⟩ := (hget j v').1 hv'
      have := e5 j hj r' hr' _ ((hfe r' (List.mem_of_getElem? hr') v' hx').2 hlt')
      rwa [EReal.coe_lt_coe_iff, neg_lt_neg_iff] at this
  · push Not at hp
    have hf := maxent_fallback err done rest hrest (fun r' hr' w hw => by
      obtain ⟨v, hv, hx, -⟩ := hdone r' hr'
      exact absurd (hef r' hr' v hx w hw).1 (not_lt.2 (hp v ((hmem v).2 ⟨r', hr', hx⟩))))
    rw [h1] at hf
    cases done with
    | nil => simp at hf
    | cons r' done =>
      simp only [Except.ok.injEq] at hf
      subst hf
      obtain ⟨v, hv, hx, hval⟩ := hdone r (by simp)
      refine ⟨v, hv, hx, 0, (hget 0 v).2 ⟨r, rfl, hx⟩, ?_, fun _ => rfl⟩
      rintro ⟨v'', hv'', hlt⟩
      exact absurd hlt (not_lt.2 (hp v'' hv''))

end Verif.LocScale
