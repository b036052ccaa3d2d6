import Verif.Lemmas.MaxentHdi
import Verif.Props.LocScale

/-!
# C122: maxent makes the interval the highest density interval of its answer

For families with a location and a scale, symmetric or not: Normal, Laplace, Logistic, Cauchy, StudentT (degrees of freedom
given), Gumbel, Moyal, AsymmetricLaplace (asymmetry given), by their documented densities.
-/

namespace Verif.Props
open MeasureTheory Verif Verif.Spec Verif.Param Verif.Optim Verif.NumFit Verif.Modifier Verif.LocScale Verif.Lemmas.MaxentHdi

variable {F : ShiftFam} {m s l u p : ℝ}

private theorem sm (hF : F.Ok) (m : ℝ) {s : ℝ} (hs : 0 < s) {l u : ℝ} (h : l ≤ u) :
    massOf (F.pdf m s) l u = area (F.pdf 0 1) ((l - m) / s) ((u - m) / s) := by
  rw [shift_moved F hF m hs, hump_mass (shift_hump F hF).choose_spec m hs h]

private theorem se (hF : F.Ok) (m : ℝ) {s : ℝ} (hs : 0 < s) : entropyOf (F.pdf m s) = Real.log s + entropyOf (F.pdf 0 1) := by
  rw [shift_moved F hF m hs, hump_entropy (shift_hump F hF).choose_spec m hs]

private theorem sle (hF : F.Ok) {m s m' s' : ℝ} (hs : 0 < s) (hs' : 0 < s') :
    entropyOf (F.pdf m s) ≤ entropyOf (F.pdf m' s') ↔ s ≤ s' := by
  rw [se hF _ hs, se hF _ hs', add_le_add_iff_right, Real.log_le_log_iff hs hs']

private theorem sends (hF : F.Ok) (hs : 0 < s) :
    F.pdf m s l = F.pdf m s u ↔ F.pdf 0 1 ((l - m) / s) = F.pdf 0 1 ((u - m) / s) := by
  rw [shift_moved F hF m hs]
  unfold moved
  rw [div_left_inj' hs.ne']

private theorem sshort (hF : F.Ok) (hs : 0 < s) (h : l ≤ u) :
    Shortest (F.pdf m s) p l u ↔ Least (F.pdf 0 1) p ((l - m) / s) ((u - m) / s) := by
  unfold Shortest Least
  rw [sm hF m hs h]
  refine and_congr_right fun _ => ⟨fun H c d hcd e => ?_, fun H c d hcd e => ?_⟩
  · have := H (m + s * c) (m + s * d) (by have := mul_le_mul_of_nonneg_left hcd hs.le; linarith) (by
      rw [sm hF m hs (by have := mul_le_mul_of_nonneg_left hcd hs.le; linarith), ← e]
      congr 1 <;> field_simp <;> ring)
    rw [← sub_div, div_le_iff₀ hs]
    nlinarith
  · rw [sm hF m hs hcd] at e
    have := H _ _ (div_le_div_of_nonneg_right (by linarith) hs.le) e
    rw [← sub_div, ← sub_div, div_le_div_iff_of_pos_right hs] at this
    linarith

/-- **C122**: let the distribution with location `m` and scale `s` give `[l, u]` the probability `p`.  It has the largest
entropy among the distributions of the family that do if and only if no interval with this probability is shorter than
`[l, u]`, and if and only if its density is the same at `l` and `u`. -/
theorem best_iff_hdi (F : ShiftFam) (hF : F.Ok) (m s l u p : ℝ) (hs : 0 < s) (h : l < u) (hm : massOf (F.pdf m s) l u = p) :
    ((∀ m' s', 0 < s' → massOf (F.pdf m' s') l u = p → entropyOf (F.pdf m' s') ≤ entropyOf (F.pdf m s)) ↔
      Shortest (F.pdf m s) p l u) ∧
    (Shortest (F.pdf m s) p l u ↔ F.pdf m s l = F.pdf m s u) := by
  have hg := (shift_hump F hF).choose_spec
  have hul := sub_pos.2 h
  have hz : (l - m) / s < (u - m) / s := div_lt_div_of_pos_right (by linarith) hs
  have hp : 0 < p := by rw [← hm, sm hF m hs h.le]; exact area_pos hg hz
  refine ⟨⟨fun H => ⟨hm, fun c d hcd e => ?_⟩, fun H m' s' hs' e => ?_⟩, ?_⟩
  · -- stretch [c, d] onto [l, u]
    by_contra hc
    have hcd' : c < d := by
      rcases hcd.lt_or_eq with h' | rfl
      · exact h'
      · rw [sm hF m hs le_rfl, area_self] at e; linarith
    have hdc := sub_pos.2 hcd'
    have r : 0 < (u - l) / (d - c) := by positivity
    have r1 : 1 < (u - l) / (d - c) := by rw [lt_div_iff₀ hdc]; linarith
    have hs' : 0 < s * ((u - l) / (d - c)) := by positivity
    have := H (l - (c - m) * ((u - l) / (d - c))) (s * ((u - l) / (d - c))) hs' (by
      rw [sm hF _ hs' h.le, ← e, sm hF m hs hcd]
      congr 1
      · field_simp; ring
      · field_simp; ring)
    rw [sle hF hs' hs] at this
    nlinarith
  · rw [sle hF hs' hs]
    by_contra hc
    rw [sm hF m' hs' h.le] at e
    have := ((sshort hF hs h.le).1 H).2 _ _ (div_le_div_of_nonneg_right (by linarith) hs'.le) e
    rw [← sub_div, ← sub_div, show u - m - (l - m) = u - l by ring, show u - m' - (l - m') = u - l by ring] at this
    have := div_lt_div_of_pos_left hul hs (not_le.1 hc)
    linarith
  · rw [sshort hF hs h.le, sends hF hs]
    refine ⟨fun H => equal_of_least hg hp.le hz.le H, fun H => ?_⟩
    have := least_of_equal hg hz H
    rwa [← sm hF m hs h.le, hm] at this

/-- **C122**: for every interval and every probability there is exactly one distribution of the family for which the interval
is a shortest interval with the probability; it is the only one with the largest entropy, and the interval is its only
interval of that length with that probability. -/
theorem hdi_best (F : ShiftFam) (hF : F.Ok) (l u p : ℝ) (h : l < u) (h0 : 0 < p) (h1 : p < 1) :
    ∃ m s, 0 < s ∧ Shortest (F.pdf m s) p l u ∧ F.pdf m s l = F.pdf m s u ∧
      (∀ c d, c ≤ d → massOf (F.pdf m s) c d = p → d - c = u - l → c = l ∧ d = u) ∧
      ∀ m' s', 0 < s' → massOf (F.pdf m' s') l u = p →
        entropyOf (F.pdf m' s') ≤ entropyOf (F.pdf m s) ∧
        (entropyOf (F.pdf m' s') = entropyOf (F.pdf m s) → m' = m ∧ s' = s) ∧
        (Shortest (F.pdf m' s') p l u → m' = m ∧ s' = s) := by
  have hg := (shift_hump F hF).choose_spec
  have hul := sub_pos.2 h
  obtain ⟨a, b, hab, hl⟩ := least_exists hg h0 h1
  have he := equal_of_least hg h0.le hab.le hl
  have hba := sub_pos.2 hab
  have hs : 0 < (u - l) / (b - a) := by positivity
  have ea : (l - (l - a * ((u - l) / (b - a)))) / ((u - l) / (b - a)) = a := by field_simp; ring
  have eb : (u - (l - a * ((u - l) / (b - a)))) / ((u - l) / (b - a)) = b := by field_simp; ring
  set s := (u - l) / (b - a) with hsd
  set m := l - a * s with hmd
  have hsh : Shortest (F.pdf m s) p l u := by rw [sshort hF hs h.le, ea, eb]; exact hl
  have hm := hsh.1
  have hends : F.pdf m s l = F.pdf m s u := by rw [sends hF hs, ea, eb]; exact he
  have pab : area (F.pdf 0 1) a b = p := hl.1
  have uniq : ∀ m' s', 0 < s' → massOf (F.pdf m' s') l u = p → s ≤ s' → m' = m ∧ s' = s := by
    intro m' s' hs' e hss
    rw [sm hF m' hs' h.le] at e
    by_contra hne
    have hd : (u - m') / s' - (l - m') / s' ≤ b - a := by
      rw [← sub_div, show u - m' - (l - m') = u - l by ring, div_le_iff₀ hs']
      have : (b - a) * s = u - l := by rw [hsd]; field_simp
      nlinarith
    have := less_of_equal hg hab he hd (by
      rintro ⟨c1, c2⟩
      refine hne ?_
      have d1 : l - m' = a * s' := by rw [← c1]; field_simp
      have d2 : u - m' = b * s' := by rw [← c2]; field_simp
      have d3 : s' = s := by
        rw [hsd, eq_div_iff hba.ne']
        linarith
      refine ⟨?_, d3⟩
      rw [hmd, ← d3]; linarith)
    linarith
  refine ⟨m, s, hs, hsh, hends, fun c d hcd e hlen => ?_, fun m' s' hs' e => ⟨?_, fun he' => ?_, fun hsh' => ?_⟩⟩
  · rw [sm hF m hs hcd] at e
    by_contra hne
    have := less_of_equal hg hab he (c := (c - m) / s) (d := (d - m) / s) (by
      rw [← sub_div, show d - m - (c - m) = u - l by linarith, hsd]
      apply le_of_eq; field_simp) (by
      rintro ⟨c1, c2⟩
      refine hne ⟨?_, ?_⟩
      · have : c - m = l - m := by
          rw [← ea] at c1; exact (div_left_inj' hs.ne').1 c1
        linarith
      · have : d - m = u - m := by
          rw [← eb] at c2; exact (div_left_inj' hs.ne').1 c2
        linarith)
    linarith
  · exact ((best_iff_hdi F hF m s l u p hs h hm).1.2 hsh) m' s' hs' e
  · exact uniq m' s' hs' e ((sle hF hs hs').1 he'.ge)
  · exact uniq m' s' hs' e ((sle hF hs hs').1 (((best_iff_hdi F hF m' s' l u p hs' h e).1.2 hsh') m s hs hm))

/-! ### maxent -/

theorem shift_candidate (F : ShiftFam) (o : Obj) (ho : construct F.family F.given = .ok o) (m s : ℝ) (o1 o2 : Obj)
    (h : applyCandidate F.family o.names (getFixedParams o).1 (getFixedParams o).2 [m, s] o1 = .ok o2) :
    law F.family o2 = F.values m s := by
  rcases F with F | _
  · exact peak_candidate F o ho m s o1 o2 h
  all_goals
    simp [construct, ShiftFam.family, ShiftFam.given, parametrize, simpleParam, simpleFam, asymLaplaceParam,
      skewNormalParam, skewStudentTParam, allNotNone, blank, Obj.setAll, Obj.set, Except.ok_bind', Except.pure_eq] at ho
    subst ho
    simp [applyCandidate, getFixedParams, splitStep, getParams, getParamsFrom, Function.update, Except.map, Except.ok_bind',
      ShiftFam.family, parametrize, kwCall, List.lookup, simpleParam, simpleFam, simpleUpdate, asymLaplaceParam,
      asymLaplaceUpdate, skewNormalParam, skewNormalUpdate, skewStudentTParam, skewStudentTUpdate, allNotNone, Obj.setAll, Obj.set, Except.pure_eq, List.zipIdx] at h
    subst h
    simp [law, lawAttrs, ShiftFam.family, ShiftFam.values, simpleFam, Obj.setAll, Obj.set, Function.update]

/-- **C122**: maxent.  Let the runs completed before the first failure end at proper distributions (positive scale) and report
their entropies, and let one of them end at the distribution for which the interval is a shortest interval with the mass.
Then the distribution returned has at least its entropy and gives the interval the mass up to 1e-4, so its scale lies between
that of this distribution and that of the one with a mass 1e-4 smaller.  If the completed runs that pass the check give the
interval exactly the mass, the interval is the shortest interval with the mass under the distribution returned, and the
density of the distribution returned is the same at its two ends. -/
theorem maxent_hdi (F : ShiftFam) (hF : F.Ok) (o : Obj) (ho : construct F.family F.given = .ok o)
    (b : ℝ → ℝ → Base) (hb : ∀ m s, 0 < s → (b m s).discrete = false ∧ (b m s).law = ofPdf (F.pdf m s))
    (l u p : ℝ) (hlu : l < u) (m0 s0 : ℝ) (hs0 : 0 < s0) (hopt0 : Shortest (F.pdf m0 s0) p l u)
    (err : List ℝ → Option ℝ) (herr : ∀ m s, 0 < s → err [m, s] = some |probBound (b m s) l u p none|)
    (done : List Opt) (rest : List (Except Err Opt)) (hrest : ∀ r, rest.head? = some r → ∃ e, r = .error e)
    (hdone : ∀ r ∈ done, ∃ m s, 0 < s ∧ r.x = [m, s] ∧ r.value = some ((-entropyOf (F.pdf m s) : ℝ) : EReal))
    (hopt : ∃ r ∈ done, r.x = [m0, s0])
    (o1 o2 : Obj) (r : Opt)
    (h : optimizeMaxEnt F.family o.names (getFixedParams o).1 (getFixedParams o).2 err (done.map .ok ++ rest) o1 =
      .ok (r, o2)) :
    ∃ m s, 0 < s ∧ law F.family o2 = F.values m s ∧ s0 ≤ s ∧
      entropyOf (F.pdf m0 s0) ≤ entropyOf (F.pdf m s) ∧
      |massOf (F.pdf m s) l u - p| < 1 / 10000 ∧
      (∀ m' s', 0 < s' → Shortest (F.pdf m' s') (p - 1 / 10000) l u → s < s') ∧
      ((∀ r' ∈ done, ∀ m' s', r'.x = [m', s'] → |massOf (F.pdf m' s') l u - p| < 1 / 10000 →
        massOf (F.pdf m' s') l u = p) →
        m = m0 ∧ s = s0 ∧ Shortest (F.pdf m s) p l u ∧ F.pdf m s l = F.pdf m s u) := by
  have hg := (shift_hump F hF).choose_spec
  have hul := sub_pos.2 hlu
  have herr' : ∀ m s, 0 < s → err [m, s] = some |massOf (F.pdf m s) l u - p| := by
    intro m s hs
    obtain ⟨h1, h2⟩ := hb m s hs
    rw [herr m s hs, constraint_is_mass _ _ _ _ hlu.le (by simp [h1]), h2]
    rfl
  obtain ⟨h1, h2⟩ := maxent_leaves_selected _ _ _ _ _ _ _ _ _ h
  obtain ⟨r0, hr0, hx0⟩ := hopt
  obtain ⟨m0', s0', -, hx0', hv0⟩ := hdone r0 hr0
  rw [hx0] at hx0'
  simp only [List.cons.injEq, and_true] at hx0'
  obtain ⟨rfl, rfl⟩ := hx0'
  have hfeas : Feasible err r0 ((-entropyOf (F.pdf m0 s0) : ℝ) : EReal) :=
    ⟨⟨_, by rw [hx0]; exact herr' _ _ hs0, by rw [hopt0.1, sub_self, abs_zero]; norm_num⟩, hv0⟩
  obtain ⟨i, r', v, e1, e2, e3, e4, -⟩ := maxent_selects err done rest hrest r0 hr0 _ hfeas (EReal.coe_ne_top _)
  rw [h1] at e1
  simp only [Except.ok.injEq] at e1
  subst e1
  have hrd := List.mem_of_getElem? e2
  obtain ⟨m, s, hs, hx, hv⟩ := hdone r hrd
  rw [hx] at h2
  obtain ⟨⟨e, he, hlt⟩, hv'⟩ := e3
  rw [hx, herr' _ _ hs] at he
  simp only [Option.some.injEq] at he
  subst he
  rw [hv] at hv'
  simp only [Option.some.injEq] at hv'
  have hle := e4 r0 hr0 _ hfeas
  rw [← hv', EReal.coe_le_coe_iff, neg_le_neg_iff] at hle
  have hbs : s0 ≤ s := (sle hF hs0 hs).1 hle
  refine ⟨m, s, hs, shift_candidate F o ho m s o1 o2 h2, hbs, hle, hlt, fun m' s' hs' hsh => ?_, fun hex => ?_⟩
  · by_contra hc
    have hends := (sends hF hs').1 ((best_iff_hdi F hF m' s' l u _ hs' hlu hsh.1).2.1 hsh)
    have hz : (l - m') / s' < (u - m') / s' := div_lt_div_of_pos_right (by linarith) hs'
    have hlen : (u - m) / s - (l - m) / s ≤ (u - m') / s' - (l - m') / s' := by
      rw [← sub_div, ← sub_div, show u - m - (l - m) = u - l by ring, show u - m' - (l - m') = u - l by ring]
      exact div_le_div_of_nonneg_left hul.le hs' (not_lt.1 hc)
    have hm' := hsh.1
    rw [sm hF m' hs' hlu.le] at hm'
    have hle' : area (F.pdf 0 1) ((l - m) / s) ((u - m) / s) ≤ p - 1 / 10000 := by
      by_cases hE : (l - m) / s = (l - m') / s' ∧ (u - m) / s = (u - m') / s'
      · rw [hE.1, hE.2, hm']
      · rw [← hm']; exact (less_of_equal hg hz hends hlen hE).le
    rw [← sm hF m hs hlu.le] at hle'
    have := (abs_lt.1 hlt).1
    linarith
  · have hm := hex r hrd m s hx hlt
    have p0 : 0 < p := by
      rw [← hm, sm hF m hs hlu.le]
      exact area_pos hg (div_lt_div_of_pos_right (by linarith) hs)
    have p1 : p < 1 := by
      rw [← hm, sm hF m hs hlu.le]
      exact area_lt_one hg (div_lt_div_of_pos_right (by linarith) hs).le
    obtain ⟨a, c, -, -, -, -, hall⟩ := hdi_best F hF l u p hlu p0 p1
    obtain ⟨rfl, rfl⟩ := (hall m0 s0 hs0 hopt0.1).2.2 hopt0
    obtain ⟨k1, k2, -⟩ := hall m s hs hm
    obtain ⟨rfl, rfl⟩ := k2 (le_antisymm k1 hle)
    exact ⟨rfl, rfl, hopt0, (best_iff_hdi F hF m s l u p hs hlu hm).2.1 hopt0⟩

/-! ### AsymmetricLaplace -/

private theorem asym_left {κ : ℝ} (hk : 0 < κ) {x : ℝ} (hx : 0 ≤ x) :
    area (asymLaplacePdf κ 0 1) (-(x * κ)) 0 = κ ^ 2 / (1 + κ ^ 2) * (1 - Real.exp (-x)) := by
  have hd : ∀ y ∈ Set.uIcc (-(x * κ)) 0, HasDerivAt (fun y => 1 / (κ + 1 / κ) * (κ * Real.exp (y / κ)))
      (1 / (κ + 1 / κ) * Real.exp (y / κ)) y := by
    intro y _
    refine HasDerivAt.congr_deriv ((((hasDerivAt_id y).div_const κ).exp.const_mul κ).const_mul _) ?_
    simp only [id]; field_simp
  unfold area
  have hle : -(x * κ) ≤ 0 := by have := mul_nonneg hx hk.le; linarith
  rw [intervalIntegral.integral_congr (g := fun y => 1 / (κ + 1 / κ) * Real.exp (y / κ)),
    intervalIntegral.integral_eq_sub_of_hasDerivAt hd ((by fun_prop : Continuous _).intervalIntegrable _ _)]
  · rw [zero_div, Real.exp_zero, show -(x * κ) / κ = -x by field_simp]
    field_simp
    ring
  · intro y hy
    rw [Set.uIcc_of_le hle] at hy
    simp only [asymLaplacePdf]
    rcases hy.2.lt_or_eq with h | rfl
    · simp [h]
    · simp

private theorem asym_right {κ : ℝ} (hk : 0 < κ) {x : ℝ} (hx : 0 ≤ x) :
    area (asymLaplacePdf κ 0 1) 0 (x / κ) = 1 / (1 + κ ^ 2) * (1 - Real.exp (-x)) := by
  have hd : ∀ y ∈ Set.uIcc 0 (x / κ), HasDerivAt (fun y => 1 / (κ + 1 / κ) * (-1 / κ * Real.exp (-y * κ)))
      (1 / (κ + 1 / κ) * Real.exp (-y * κ)) y := by
    intro y _
    refine HasDerivAt.congr_deriv ((((hasDerivAt_id y).neg.mul_const κ).exp.const_mul (-1 / κ)).const_mul _) ?_
    simp only [id, Pi.neg_apply]; field_simp
  unfold area
  have hle : 0 ≤ x / κ := by positivity
  rw [intervalIntegral.integral_congr (g := fun y => 1 / (κ + 1 / κ) * Real.exp (-y * κ)),
    intervalIntegral.integral_eq_sub_of_hasDerivAt hd ((by fun_prop : Continuous _).intervalIntegrable _ _)]
  · rw [neg_zero, zero_mul, Real.exp_zero, show -(x / κ) * κ = -x by field_simp]
    field_simp
    ring
  · intro y hy
    rw [Set.uIcc_of_le hle] at hy
    simp only [asymLaplacePdf]
    simp [not_lt.2 hy.1]

/-- **C122**: the optimum for AsymmetricLaplace with given asymmetry, in closed form. -/
theorem asymmetric_best (κ l u p : ℝ) (hk : 0 < κ) (h : l < u) (h0 : 0 < p) (h1 : p < 1) (m s : ℝ) (hs : 0 < s) :
    Shortest ((ShiftFam.asymmetricLaplace κ).pdf m s) p l u ↔
      m = (l + κ ^ 2 * u) / (1 + κ ^ 2) ∧ s = κ * (u - l) / ((1 + κ ^ 2) * -Real.log (1 - p)) := by
  set F := ShiftFam.asymmetricLaplace κ with hFd
  have hF : F.Ok := hk
  have hul := sub_pos.2 h
  have hL : 0 < -Real.log (1 - p) := neg_pos.2 (Real.log_neg (by linarith) (by linarith))
  set E := -Real.log (1 - p) with hE
  set m0 := (l + κ ^ 2 * u) / (1 + κ ^ 2) with hm0
  set s0 := κ * (u - l) / ((1 + κ ^ 2) * E) with hs0'
  have hs0 : 0 < s0 := by positivity
  have ea : (l - m0) / s0 = -(E * κ) := by rw [hm0, hs0']; field_simp; ring
  have eb : (u - m0) / s0 = E / κ := by rw [hm0, hs0']; field_simp; ring
  have hmass : massOf (F.pdf m0 s0) l u = p := by
    rw [sm hF m0 hs0 h.le, ea, eb, ← area_split (shift_hump F hF).choose_spec _ 0 _]
    change area (asymLaplacePdf κ 0 1) _ _ + area (asymLaplacePdf κ 0 1) _ _ = p
    rw [asym_left hk hL.le, asym_right hk hL.le, hE, neg_neg, Real.exp_log (by linarith)]
    field_simp
    ring
  have hends : F.pdf m0 s0 l = F.pdf m0 s0 u := by
    rw [sends hF hs0, ea, eb]
    change asymLaplacePdf κ 0 1 _ = asymLaplacePdf κ 0 1 _
    have h3 : -(E * κ) < 0 := by have := mul_pos hL hk; linarith
    have h4 : ¬ E / κ < 0 := not_lt.2 (by positivity)
    unfold asymLaplacePdf
    rw [if_pos h3, if_neg h4]
    congr 2
    field_simp
    ring
  have hsh0 := (best_iff_hdi F hF m0 s0 l u p hs0 h hmass).2.2 hends
  obtain ⟨a, c, -, -, -, -, hall⟩ := hdi_best F hF l u p h h0 h1
  obtain ⟨e1, e2⟩ := (hall m0 s0 hs0 hmass).2.2 hsh0
  constructor
  · intro H
    obtain ⟨e3, e4⟩ := (hall m s hs H.1).2.2 H
    exact ⟨e3.trans e1.symm, e4.trans e2.symm⟩
  · rintro ⟨rfl, rfl⟩
    exact hsh0

/-! The hypotheses are met. -/

theorem shiftPdf_prob {F : ShiftFam} (hF : F.Ok) (m : ℝ) {s : ℝ} (hs : 0 < s) : IsProbabilityMeasure (ofPdf (F.pdf m s)) := by
  have hg := (shift_hump F hF).choose_spec
  have h0 : ∀ y, 0 ≤ moved (F.pdf 0 1) m s y := fun y => div_nonneg (hg.pos _).le hs.le
  have h1 : Integrable fun x => F.pdf 0 1 (x / s) := hg.int.comp_div hs.ne'
  have hi : Integrable (moved (F.pdf 0 1) m s) := (h1.comp_sub_right m).div_const s
  rw [shift_moved F hF m hs]
  constructor
  unfold ofPdf
  rw [withDensity_apply _ MeasurableSet.univ, Measure.restrict_univ,
    ← ofReal_integral_eq_lintegral_ofReal hi (Filter.Eventually.of_forall h0)]
  have : ∫ x, moved (F.pdf 0 1) m s x = 1 := by
    have e : moved (F.pdf 0 1) m s = fun x => F.pdf 0 1 ((x - m) / s) / s := rfl
    rw [e, integral_div, integral_sub_right_eq_self (fun x => F.pdf 0 1 (x / s)) m, Measure.integral_comp_div, hg.one,
      smul_eq_mul, mul_one, abs_of_pos hs, div_self hs.ne']
  rw [this, ENNReal.ofReal_one]

/-- the distributions of a family as continuous bases -/
noncomputable def shiftBase (F : ShiftFam) (hF : F.Ok) (m s : ℝ) : Base :=
  if hs : 0 < s then
    haveI := shiftPdf_prob hF m hs
    haveI : IsProbabilityMeasure (volume.withDensity fun x => ENNReal.ofReal (F.pdf m s x)) := shiftPdf_prob hF m hs
    densityBase (F.pdf m s)
      (by rw [shift_moved F hF m hs]; exact ((shift_hump F hF).choose_spec.cont.measurable.comp (by fun_prop)).div_const _)
      (by rw [shift_moved F hF m hs]; exact fun y => div_nonneg ((shift_hump F hF).choose_spec.pos _).le hs.le) ⊥ ⊤ (by simp)
  else unif 0 1 (by norm_num)

private theorem two_ok : (ShiftFam.asymmetricLaplace 2).Ok := two_pos

/-- `maxent(AsymmetricLaplace(kappa=2), 0, 5, mass)`: one run ends elsewhere, the next at the optimum, where the location is 4
and the scale 2, the third fails -/
example : ∃ (p : ℝ) (o o2 : Obj) (r : Opt) (err : List ℝ → Option ℝ) (done : List Opt),
    Shortest ((ShiftFam.asymmetricLaplace 2).pdf 4 2) p 0 5 ∧ p = 1 - Real.exp (-1) ∧
    construct .asymmetricLaplace (ShiftFam.asymmetricLaplace 2).given = .ok o ∧
    (∀ m s, 0 < s → (shiftBase (.asymmetricLaplace 2) two_ok m s).discrete = false ∧
      (shiftBase (.asymmetricLaplace 2) two_ok m s).law = ofPdf ((ShiftFam.asymmetricLaplace 2).pdf m s)) ∧
    (∀ m s, 0 < s → err [m, s] = some |probBound (shiftBase (.asymmetricLaplace 2) two_ok m s) 0 5 p none|) ∧
    done.length = 2 ∧
    (∀ r ∈ done, ∃ m s, 0 < s ∧ r.x = [m, s] ∧
      r.value = some ((-entropyOf ((ShiftFam.asymmetricLaplace 2).pdf m s) : ℝ) : EReal)) ∧
    (∃ r ∈ done, r.x = [4, 2]) ∧
    optimizeMaxEnt .asymmetricLaplace o.names (getFixedParams o).1 (getFixedParams o).2 err
      (done.map .ok ++ [.error .valueError]) o = .ok (r, o2) := by
  have hF := two_ok
  have e1 : Real.exp (-1) < 1 := by
    have := Real.exp_lt_exp.2 (show (-1 : ℝ) < 0 by norm_num)
    rwa [Real.exp_zero] at this
  have e0 := Real.exp_pos (-1)
  have hsh : Shortest ((ShiftFam.asymmetricLaplace 2).pdf 4 2) (1 - Real.exp (-1)) 0 5 := by
    rw [asymmetric_best 2 0 5 _ two_pos (by norm_num) (by linarith) (by linarith) _ _ two_pos]
    rw [sub_sub_cancel, Real.log_exp]
    norm_num
  have hbase : ∀ m s, 0 < s → (shiftBase (.asymmetricLaplace 2) hF m s).discrete = false ∧
      (shiftBase (.asymmetricLaplace 2) hF m s).law = ofPdf ((ShiftFam.asymmetricLaplace 2).pdf m s) := by
    intro m s hs
    unfold shiftBase
    rw [dif_pos hs]
    exact ⟨rfl, rfl⟩
  set val : ℝ → ℝ → Option EReal := fun m s => some ((-entropyOf ((ShiftFam.asymmetricLaplace 2).pdf m s) : ℝ) : EReal) with hval
  set err : List ℝ → Option ℝ := fun x => match x with
    | [m, s] => some |probBound (shiftBase (.asymmetricLaplace 2) hF m s) 0 5 (1 - Real.exp (-1)) none|
    | _ => none with herr
  obtain ⟨o, ho⟩ : ∃ o, construct .asymmetricLaplace (ShiftFam.asymmetricLaplace 2).given = .ok o := by
    simp [construct, ShiftFam.given, parametrize, asymLaplaceParam, allNotNone, Except.ok_bind', Except.pure_eq]
  have hap : ∀ m s, ∃ o2, applyCandidate .asymmetricLaplace o.names (getFixedParams o).1 (getFixedParams o).2 [m, s] o =
      .ok o2 := by
    intro m s
    simp [construct, ShiftFam.given, parametrize, asymLaplaceParam, allNotNone, Except.ok_bind', Except.pure_eq, Obj.setAll,
      Obj.set, blank] at ho
    subst ho
    simp [applyCandidate, getFixedParams, splitStep, getParams, getParamsFrom, Function.update, Except.map, Except.ok_bind',
      parametrize, kwCall, List.lookup, asymLaplaceParam, allNotNone, Except.pure_eq, List.zipIdx]
  have hsel : ∃ r m s, selectOpt err ([⟨[1, 1], val 1 1⟩, ⟨[4, 2], val 4 2⟩].map .ok ++
      [.error .valueError]) = .ok r ∧ r.x = [m, s] := by
    obtain ⟨i, r, v, e1, e2, -⟩ := maxent_selects err
      [⟨[1, 1], val 1 1⟩, ⟨[4, 2], val 4 2⟩] [.error .valueError] (by simp)
      ⟨[4, 2], val 4 2⟩ (by simp)
      ((-entropyOf ((ShiftFam.asymmetricLaplace 2).pdf 4 2) : ℝ) : EReal)
      ⟨⟨_, rfl, by
        rw [constraint_is_mass _ _ _ _ (by norm_num) (by simp [(hbase _ _ two_pos).1]), (hbase _ _ two_pos).2]
        change |massOf _ 0 5 - _| < _
        rw [hsh.1]; norm_num⟩, rfl⟩ (EReal.coe_ne_top _)
    have := List.mem_of_getElem? e2
    simp only [List.mem_cons, List.not_mem_nil, or_false] at this
    rcases this with rfl | rfl
    · exact ⟨_, 1, 1, e1, rfl⟩
    · exact ⟨_, _, _, e1, rfl⟩
  obtain ⟨r, m, s, hr, hx⟩ := hsel
  obtain ⟨o2, ho2⟩ := hap m s
  refine ⟨_, o, o2, r, err, [⟨[1, 1], val 1 1⟩, ⟨[4, 2], val 4 2⟩], hsh, rfl, ho, hbase,
    fun m s _ => rfl, rfl, ?_, ⟨_, List.mem_cons_of_mem _ (List.mem_singleton.2 rfl), rfl⟩, ?_⟩
  · intro r hr
    simp only [List.mem_cons, List.not_mem_nil, or_false] at hr
    rcases hr with rfl | rfl
    · exact ⟨1, 1, one_pos, rfl, rfl⟩
    · exact ⟨4, 2, two_pos, rfl, rfl⟩
  · unfold optimizeMaxEnt
    rw [hr]
    simp only [Except.ok_bind']
    rw [hx, ho2]
    rfl

/-- for Gumbel the interval is not centred on the mode, mean or median: at the optimum the density is the same at its ends -/
example : ∃ m s, 0 < s ∧ Shortest (gumbelPdf m s) (9 / 10) 0 10 ∧ gumbelPdf m s 0 = gumbelPdf m s 10 := by
  obtain ⟨m, s, hs, h1, h2, -⟩ := hdi_best .gumbel trivial 0 10 (9 / 10) (by norm_num) (by norm_num) (by norm_num)
  exact ⟨m, s, hs, h1, h2⟩

/-- SkewNormal with `alpha = 3` and SkewStudentT with `a = 2`, `b = 1` are among the families; the location and the scale are
what is searched -/
example : (ShiftFam.skewNormal 3).Ok ∧ (ShiftFam.skewStudentT 2 1).Ok ∧
    (∃ o, construct (ShiftFam.skewNormal 3).family (ShiftFam.skewNormal 3).given = .ok o ∧
      getFixedParams o = ([0, 1], [3])) ∧
    ∃ o, construct (ShiftFam.skewStudentT 2 1).family (ShiftFam.skewStudentT 2 1).given = .ok o ∧
      getFixedParams o = ([0, 1], [2, 1]) := by
  refine ⟨trivial, ⟨two_pos, one_pos⟩, ⟨_, rfl, ?_⟩, ⟨_, rfl, ?_⟩⟩ <;>
    simp [getFixedParams, splitStep, ShiftFam.given, blank, Obj.setAll, Obj.set, Function.update, Except.pure_eq, List.zipIdx]

end Verif.Props
