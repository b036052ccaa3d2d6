import Verif.Lemmas.LogScale
import Verif.Props.LocScale

/-!
# C131: maxent for LogNormal and LogLogistic

By their documented densities; `m` and `s` are the location and the scale of the logarithm.
-/

namespace Verif.Props
open MeasureTheory Verif Verif.Spec Verif.Param Verif.Optim Verif.NumFit Verif.Modifier Verif.LocScale Verif.LogScale

/-- **C131**: every distribution of the two classes is one of those described by `m` and `s`. -/
theorem log_every (a b : ℝ) (hb : 0 < b) :
    (∃ m s, 0 < s ∧ LogFam.logNormal.params m s = [a, b] ∧
      LogFam.logNormal.pdf m s = fun x => if 0 < x then logNormalPdf a b x else 0) ∧
    (0 < a → ∃ m s, 0 < s ∧ LogFam.logLogistic.params m s = [a, b] ∧ LogFam.logLogistic.pdf m s = logLogisticPdf a b) := by
  refine ⟨⟨a, b, hb, rfl, rfl⟩, fun ha => ⟨Real.log a, 1 / b, by positivity, ?_, ?_⟩⟩
  · simp only [LogFam.params, Real.exp_log ha, one_div_one_div]
  · simp only [LogFam.pdf, Real.exp_log ha, one_div_one_div]

/-- **C131**: on an interval of positive numbers exactly one distribution of the family has the largest entropy among those that
give the interval a mass below one; its median `exp m` lies above the geometric mean of the ends. -/
theorem log_best (F : LogFam) (l u p : ℝ) (hl : 0 < l) (h : l < u) (h0 : 0 < p) (h1 : p < 1) :
    ∃ m s, 0 < s ∧ massOf (F.pdf m s) l u = p ∧ √(l * u) < Real.exp m ∧
      ∀ m' s', 0 < s' → massOf (F.pdf m' s') l u = p →
        entropyOf (F.pdf m' s') ≤ entropyOf (F.pdf m s) ∧
        (entropyOf (F.pdf m' s') = entropyOf (F.pdf m s) → m' = m ∧ s' = s) := by
  have hg := peak_fam _ (logOf_ok F)
  have hu := hl.trans h
  have hab := Real.log_lt_log hl h
  obtain ⟨m, s, hs, he, hmax⟩ := span_best hg hab h0 h1
  refine ⟨m, s, hs, by rw [log_mass F m hs hl h.le, he], ?_, fun m' s' hs' hm' => ?_⟩
  · have := span_above hg hab h0 h1 hs he hmax
    rw [← Real.log_mul hl.ne' hu.ne', ← Real.log_sqrt (by positivity)] at this
    rwa [← Real.log_lt_iff_lt_exp (Real.sqrt_pos.2 (by positivity))]
  · rw [log_mass F m' hs' hl h.le] at hm'
    rw [log_entropy F m' hs', log_entropy F m hs]
    refine ⟨by linarith [hmax m' s' hs' hm'], fun hj => ?_⟩
    exact span_unique hg (mid_convex F) hab h0 h1 hs hs' he hm' hmax (by linarith)

/-- **C131**: multiplying both ends by a number multiplies the median by it and leaves the scale of the logarithm as it is. -/
theorem log_units (F : LogFam) (l u k m s : ℝ) (hl : 0 < l) (h : l ≤ u) (hk : 0 < k) (hs : 0 < s) :
    massOf (F.pdf (m + Real.log k) s) (k * l) (k * u) = massOf (F.pdf m s) l u ∧
    entropyOf (F.pdf (m + Real.log k) s) = entropyOf (F.pdf m s) + Real.log k := by
  have hu := hl.trans_le h
  rw [log_mass F _ hs (by positivity) (by gcongr), log_mass F m hs hl h, log_entropy F _ hs, log_entropy F m hs,
    Real.log_mul hk.ne' hl.ne', Real.log_mul hk.ne' hu.ne']
  refine ⟨?_, by ring⟩
  unfold span
  congr 2 <;> ring

/-- **C131**: on an interval that starts at zero, a mass above one half: the best distribution has the median `u / e`, whatever
the mass; only its scale depends on it. -/
theorem log_from_zero (F : LogFam) (u p : ℝ) (hu : 0 < u) (h0 : 1 / 2 < p) (h1 : p < 1) :
    ∃ z, 0 < z ∧ massOf (F.pdf 0 1) 0 (Real.exp z) = p ∧ massOf (F.pdf (Real.log u - 1) (1 / z)) 0 u = p ∧
      Real.exp (Real.log u - 1) = u / Real.exp 1 ∧
      ∀ m' s', 0 < s' → massOf (F.pdf m' s') 0 u = p →
        entropyOf (F.pdf m' s') ≤ entropyOf (F.pdf (Real.log u - 1) (1 / z)) ∧
        (entropyOf (F.pdf m' s') = entropyOf (F.pdf (Real.log u - 1) (1 / z)) → m' = Real.log u - 1 ∧ s' = 1 / z) := by
  have hg := peak_fam _ (logOf_ok F)
  obtain ⟨z, hz⟩ := upTo_exists hg (p := p) (by linarith) h1
  have z0 : 0 < z := by rw [← (upTo_mono hg).lt_iff_lt, hz, upTo_zero hg]; exact h0
  have hs : 0 < 1 / z := by positivity
  refine ⟨z, z0, ?_, ?_, ?_, fun m' s' hs' hm' => ?_⟩
  · rw [log_mass_zero F 0 one_pos (Real.exp_pos z), Real.log_exp, sub_zero, div_one, hz]
  · rw [log_mass_zero F _ hs hu, ← hz]
    congr 1
    field_simp
    ring
  · rw [Real.exp_sub, Real.exp_log hu]
  · rw [log_mass_zero F m' hs' hu, ← hz, (upTo_mono hg).injective.eq_iff, div_eq_iff hs'.ne'] at hm'
    rw [log_entropy F m' hs', log_entropy F _ hs]
    have hm : m' = Real.log u - z * s' := by linarith
    have l1 : Real.log (1 / z) = -Real.log z := by rw [one_div, Real.log_inv]
    have l2 : Real.log (z * s') = Real.log z + Real.log s' := Real.log_mul z0.ne' hs'.ne'
    have key := Real.log_le_sub_one_of_pos (mul_pos z0 hs')
    refine ⟨by rw [hm, l1]; linarith, fun hj => ?_⟩
    have heq : z * s' = 1 := by
      by_contra hne
      have := Real.log_lt_sub_one_of_pos (mul_pos z0 hs') hne
      rw [hm, l1] at hj
      linarith
    refine ⟨by rw [hm, heq], ?_⟩
    field_simp
    linarith

/-- **C131**: in the parameters of LogLogistic: `alpha = u / e` and `beta = log (p / (1 - p))`. -/
theorem loglogistic_from_zero (u p : ℝ) (hu : 0 < u) (h0 : 1 / 2 < p) (h1 : p < 1) :
    0 < Real.log (p / (1 - p)) ∧ massOf (logLogisticPdf (u / Real.exp 1) (Real.log (p / (1 - p)))) 0 u = p ∧
      ∀ a b, 0 < a → 0 < b → massOf (logLogisticPdf a b) 0 u = p →
        entropyOf (logLogisticPdf a b) ≤ entropyOf (logLogisticPdf (u / Real.exp 1) (Real.log (p / (1 - p)))) ∧
        (entropyOf (logLogisticPdf a b) = entropyOf (logLogisticPdf (u / Real.exp 1) (Real.log (p / (1 - p)))) →
          a = u / Real.exp 1 ∧ b = Real.log (p / (1 - p))) := by
  obtain ⟨z, z0, hz, hm, he, hmax⟩ := log_from_zero .logLogistic u p hu h0 h1
  have q0 : 0 < 1 - p := by linarith
  have zeq : z = Real.log (p / (1 - p)) := by
    have hf : ∀ y, 0 ≤ logLogisticPdf (Real.exp 0) (1 / 1) y := fun y => by
      unfold logLogisticPdf; split_ifs <;> positivity
    have h2 : massOf (LogFam.logLogistic.pdf 0 1) 0 (Real.exp z) = upTo (logisticPdf 0 1) z := by
      rw [log_mass_zero .logLogistic 0 one_pos (Real.exp_pos z), Real.log_exp, sub_zero, div_one]; rfl
    have hg := peak_fam .logistic trivial
    have h3 := Lemmas.QuartileShape.cdf_logLogistic (a := 1) (b := 1) one_pos one_pos (Real.exp_pos z)
    have h4 : (ofPdf (logLogisticPdf 1 1)).real (Set.Iic (Real.exp z)) = massOf (LogFam.logLogistic.pdf 0 1) 0 (Real.exp z) := by
      have e1 : LogFam.logLogistic.pdf 0 1 = logLogisticPdf 1 1 := by simp [LogFam.pdf]
      rw [h2, ← e1, pdf_expOf .logLogistic 0 one_pos]
      have := expOf_real (f := (logOf .logLogistic).pdf 0 1) hg.cont.measurable hg.nonneg hg.int
        (measurableSet_Iic (a := Real.exp z))
      rw [this]
      unfold upTo
      congr 2
      ext y
      simp
    rw [h4, hz, div_one, Real.rpow_one] at h3
    have h5 : Real.exp z = p / (1 - p) := by
      have := Real.exp_pos z
      field_simp at h3 ⊢
      linarith
    rw [← h5, Real.log_exp]
  rw [← zeq]
  have e2 : LogFam.logLogistic.pdf (Real.log u - 1) (1 / z) = logLogisticPdf (u / Real.exp 1) z := by
    simp only [LogFam.pdf, he, one_div_one_div]
  rw [e2] at hm hmax
  refine ⟨z0, hm, fun a b ha hb hab => ?_⟩
  obtain ⟨m, s, hs, hx, hp⟩ := (log_every a b hb).2 ha
  rw [← hp] at hab ⊢
  obtain ⟨k1, k2⟩ := hmax m s hs hab
  refine ⟨k1, fun hj => ?_⟩
  obtain ⟨rfl, rfl⟩ := k2 hj
  simp only [LogFam.params, List.cons.injEq, and_true, one_div_one_div] at hx
  exact ⟨by rw [← hx.1, he], hx.2.symm⟩

/-- **C131**: on an interval that starts at zero, a mass of one half or less: there is no best distribution. -/
theorem log_from_zero_none (F : LogFam) (u p : ℝ) (hu : 0 < u) (h0 : 0 < p) (h1 : p ≤ 1 / 2) (K : ℝ) :
    ∃ m s, 0 < s ∧ massOf (F.pdf m s) 0 u = p ∧ K < entropyOf (F.pdf m s) := by
  have hg := peak_fam _ (logOf_ok F)
  obtain ⟨z, hz⟩ := upTo_exists hg h0 (by linarith : p < 1)
  have z0 : z ≤ 0 := by rw [← (upTo_mono hg).le_iff_le, hz, upTo_zero hg]; exact h1
  set c := Real.log u + entropyOf ((logOf F).pdf 0 1) with hc
  have hs := Real.exp_pos (K - c + 1)
  refine ⟨Real.log u - z * Real.exp (K - c + 1), Real.exp (K - c + 1), hs, ?_, ?_⟩
  · rw [log_mass_zero F _ hs hu, ← hz]
    congr 1
    field_simp
    ring
  · rw [log_entropy F _ hs, Real.log_exp]
    have : z * Real.exp (K - c + 1) ≤ 0 := mul_nonpos_of_nonpos_of_nonneg z0 hs.le
    linarith

/-- **C131**: no distribution of the families gives a bounded interval the mass one. -/
theorem log_mass_below_one (F : LogFam) (l u m s : ℝ) (hl : 0 ≤ l) (h : l < u) (hs : 0 < s) : massOf (F.pdf m s) l u < 1 := by
  have hg := peak_fam _ (logOf_ok F)
  rcases hl.lt_or_eq with hl | rfl
  · rw [log_mass F m hs hl h.le]
    unfold span
    linarith [upTo_lt_one hg ((Real.log u - m) / s), upTo_pos hg ((Real.log l - m) / s)]
  · rw [log_mass_zero F m hs h]
    exact upTo_lt_one hg _

/-! ### maxent -/

theorem log_params_inj (F : LogFam) (m s m' s' : ℝ) (h : F.params m s = F.params m' s') : m = m' ∧ s = s' := by
  cases F
  · simpa [LogFam.params] using h
  · simpa [LogFam.params] using h

theorem log_candidate (F : LogFam) (o : Obj) (ho : construct F.family (fun _ => none) = .ok o) (m s : ℝ) (o1 o2 : Obj)
    (h : applyCandidate F.family o.names (getFixedParams o).1 (getFixedParams o).2 (F.params m s) o1 = .ok o2) :
    law F.family o2 = (F.params m s).map some := by
  cases F <;>
    simp [construct, LogFam.family, parametrize, simpleParam, simpleFam, allNotNone, blank, Obj.setAll, Obj.set] at ho <;>
    subst ho <;>
    simp [applyCandidate, getFixedParams, splitStep, getParams, getParamsFrom, Except.map, Except.ok_bind', LogFam.params,
      LogFam.family, parametrize, kwCall, List.lookup, simpleParam, simpleFam, simpleUpdate, allNotNone, Obj.setAll, Obj.set,
      Except.pure_eq, List.zipIdx] at h <;>
    subst h <;>
    simp [law, lawAttrs, LogFam.family, LogFam.params, Function.update]

/-- **C131**: maxent.  Let the runs completed before the first failure end at proper distributions and report their entropies,
and let one of them end at the best distribution.  Then the one returned has the mass up to 1e-4 and at least that entropy, and
is the best one if the runs that pass the check have exactly the mass. -/
theorem maxent_log (F : LogFam) (o : Obj) (ho : construct F.family (fun _ => none) = .ok o)
    (b : ℝ → ℝ → Base) (hb : ∀ m s, 0 < s → (b m s).discrete = false ∧ (b m s).law = ofPdf (F.pdf m s))
    (l u p : ℝ) (hlu : l < u) (m₀ s₀ : ℝ) (hs₀ : 0 < s₀) (hmass : massOf (F.pdf m₀ s₀) l u = p)
    (hbest : ∀ m' s', 0 < s' → massOf (F.pdf m' s') l u = p → entropyOf (F.pdf m' s') ≤ entropyOf (F.pdf m₀ s₀) ∧
      (entropyOf (F.pdf m' s') = entropyOf (F.pdf m₀ s₀) → m' = m₀ ∧ s' = s₀))
    (err : List ℝ → Option ℝ) (herr : ∀ m s, 0 < s → err (F.params m s) = some |probBound (b m s) l u p none|)
    (done : List Opt) (rest : List (Except Err Opt)) (hrest : ∀ r, rest.head? = some r → ∃ e, r = .error e)
    (hdone : ∀ r ∈ done, ∃ m s, 0 < s ∧ r.x = F.params m s ∧ r.value = some ((-entropyOf (F.pdf m s) : ℝ) : EReal))
    (hopt : ∃ r ∈ done, r.x = F.params m₀ s₀)
    (o1 o2 : Obj) (r : Opt)
    (h : optimizeMaxEnt F.family o.names (getFixedParams o).1 (getFixedParams o).2 err (done.map .ok ++ rest) o1 =
      .ok (r, o2)) :
    ∃ m s, 0 < s ∧ law F.family o2 = (F.params m s).map some ∧ |massOf (F.pdf m s) l u - p| < 1 / 10000 ∧
      entropyOf (F.pdf m₀ s₀) ≤ entropyOf (F.pdf m s) ∧
      ((∀ r' ∈ done, ∀ m' s', 0 < s' → r'.x = F.params m' s' → |massOf (F.pdf m' s') l u - p| < 1 / 10000 →
        massOf (F.pdf m' s') l u = p) → m = m₀ ∧ s = s₀) := by
  have herr' : ∀ m s, 0 < s → err (F.params m s) = some |massOf (F.pdf m s) l u - p| := by
    intro m s hs
    obtain ⟨h1, h2⟩ := hb m s hs
    rw [herr m s hs, constraint_is_mass _ _ _ _ hlu.le (by simp [h1]), h2]
    rfl
  obtain ⟨h1, h2⟩ := maxent_leaves_selected _ _ _ _ _ _ _ _ _ h
  obtain ⟨r0, hr0, hx0⟩ := hopt
  obtain ⟨m', s', -, hx0', hv0⟩ := hdone r0 hr0
  obtain ⟨rfl, rfl⟩ := log_params_inj F _ _ _ _ (hx0'.symm.trans hx0)
  have hfeas : Feasible err r0 ((-entropyOf (F.pdf m' s') : ℝ) : EReal) :=
    ⟨⟨_, by rw [hx0]; exact herr' _ _ hs₀, by rw [hmass, sub_self, abs_zero]; norm_num⟩, hv0⟩
  obtain ⟨i, r', v, e1, e2, e3, e4, -⟩ := maxent_selects err done rest hrest r0 hr0 _ hfeas (EReal.coe_ne_top _)
  rw [h1] at e1
  simp only [Except.ok.injEq] at e1
  subst e1
  have hrd := List.mem_of_getElem? e2
  obtain ⟨m, s, hs, hx, hv⟩ := hdone r hrd
  rw [hx] at h2
  obtain ⟨⟨e, he, hlt⟩, hv'⟩ := e3
  rw [hx, herr' _ _ hs] at he
  simp only [Option.some.injEq] at he
  subst he
  rw [hv] at hv'
  simp only [Option.some.injEq] at hv'
  have hle := e4 r0 hr0 _ hfeas
  rw [← hv', EReal.coe_le_coe_iff, neg_le_neg_iff] at hle
  refine ⟨m, s, hs, log_candidate F o ho m s o1 o2 h2, hlt, hle, fun hex => ?_⟩
  obtain ⟨a, c⟩ := hbest m s hs (hex r hrd m s hs hx hlt)
  exact c (le_antisymm a hle)

/-! ### Examples -/

theorem log_prob (F : LogFam) (m : ℝ) {s : ℝ} (hs : 0 < s) :
    IsProbabilityMeasure (volume.withDensity fun x => ENNReal.ofReal (F.pdf m s x)) := by
  have hg := peak_fam _ (logOf_ok F)
  have hp := peakPdf_prob (logOf_ok F) m hs
  constructor
  have h1 := expOf_real (f := (logOf F).pdf m s) (by rw [fam_moved _ m hs]; exact moved_meas hg m s)
    (by rw [fam_moved _ m hs]; exact fun x => div_nonneg (hg.nonneg _) hs.le)
    (by rw [fam_moved _ m hs]; exact moved_int hg m hs) MeasurableSet.univ
  have h2 : (ofPdf ((logOf F).pdf m s)).real Set.univ = 1 := by
    rw [measureReal_def]
    have : ofPdf ((logOf F).pdf m s) Set.univ = 1 := hp.measure_univ
    rw [this, ENNReal.toReal_one]
  rw [Lemmas.QuartileShape.real_pdf MeasurableSet.univ (by rw [fam_moved _ m hs]; exact fun x => div_nonneg (hg.nonneg _) hs.le)
    (by rw [fam_moved _ m hs]; exact (moved_int hg m hs).integrableOn)] at h2
  rw [Set.preimage_univ, h2, ← pdf_expOf F m hs, measureReal_def] at h1
  exact (ENNReal.toReal_eq_one_iff _).1 h1

theorem log_meas (F : LogFam) (m : ℝ) {s : ℝ} (hs : 0 < s) : Measurable (F.pdf m s) := by
  rw [pdf_expOf F m hs, fam_moved _ m hs]
  exact Measurable.ite measurableSet_Ioi
    (((moved_meas (peak_fam _ (logOf_ok F)) m s).comp Real.measurable_log).div measurable_id) measurable_const

theorem log_nonneg (F : LogFam) (m : ℝ) {s : ℝ} (hs : 0 < s) (x : ℝ) : 0 ≤ F.pdf m s x := by
  rw [pdf_expOf F m hs, fam_moved _ m hs]
  exact expOf_nonneg (fun x => div_nonneg ((peak_fam _ (logOf_ok F)).nonneg _) hs.le) x

/-- the distributions of the families as continuous bases -/
noncomputable def logBase (F : LogFam) (m s : ℝ) : Base :=
  open Classical in
  if hs : 0 < s then
    haveI : IsProbabilityMeasure (volume.withDensity fun x => ENNReal.ofReal (F.pdf m s x)) := log_prob F m hs
    densityBase (F.pdf m s) (log_meas F m hs) (log_nonneg F m hs) ⊥ ⊤ (by simp)
  else unif 0 1 (by norm_num)

/-- the distance from the mass asked for, by the parameters -/
noncomputable def logErr (F : LogFam) (l u p : ℝ) (x : List ℝ) : Option ℝ :=
  open Classical in
  if h : ∃ q : ℝ × ℝ, 0 < q.2 ∧ x = F.params q.1 q.2 then some |probBound (logBase F h.choose.1 h.choose.2) l u p none| else none

theorem logErr_eq (F : LogFam) (l u p m s : ℝ) (hs : 0 < s) :
    logErr F l u p (F.params m s) = some |probBound (logBase F m s) l u p none| := by
  have h : ∃ q : ℝ × ℝ, 0 < q.2 ∧ F.params m s = F.params q.1 q.2 := ⟨(m, s), hs, rfl⟩
  unfold logErr
  rw [dif_pos h]
  obtain ⟨e1, e2⟩ := log_params_inj F _ _ _ _ h.choose_spec.2
  rw [← e1, ← e2]

theorem logBase_law (F : LogFam) (m s : ℝ) (hs : 0 < s) :
    (logBase F m s).discrete = false ∧ (logBase F m s).law = ofPdf (F.pdf m s) := by
  unfold logBase
  rw [dif_pos hs]
  exact ⟨rfl, rfl⟩

theorem log_candidate_runs (F : LogFam) (o : Obj) (ho : construct F.family (fun _ => none) = .ok o) (m s : ℝ) (o1 : Obj) :
    ∃ o2, applyCandidate F.family o.names (getFixedParams o).1 (getFixedParams o).2 (F.params m s) o1 = .ok o2 := by
  cases F <;>
    simp [construct, LogFam.family, parametrize, simpleParam, simpleFam, allNotNone, blank, Obj.setAll, Obj.set] at ho <;>
    subst ho <;>
    simp [applyCandidate, getFixedParams, splitStep, getParams, getParamsFrom, Except.map, Except.ok_bind', LogFam.params,
      LogFam.family, parametrize, kwCall, List.lookup, simpleParam, simpleFam, simpleUpdate, allNotNone, Obj.setAll, Obj.set,
      Except.pure_eq, List.zipIdx]

/-- `maxent` of either class on any interval of positive numbers: one run ends at the best distribution, the next fails -/
example (F : LogFam) (l u p : ℝ) (hl : 0 < l) (hlu : l < u) (h0 : 0 < p) (h1 : p < 1) (o1 : Obj) :
    ∃ (o o2 : Obj) (r : Opt) (done : List Opt) (m₀ s₀ : ℝ), 0 < s₀ ∧ massOf (F.pdf m₀ s₀) l u = p ∧
    construct F.family (fun _ => none) = .ok o ∧
    (∀ r ∈ done, ∃ m s, 0 < s ∧ r.x = F.params m s ∧ r.value = some ((-entropyOf (F.pdf m s) : ℝ) : EReal)) ∧
    (∃ r ∈ done, r.x = F.params m₀ s₀) ∧
    optimizeMaxEnt F.family o.names (getFixedParams o).1 (getFixedParams o).2 (logErr F l u p)
      (done.map .ok ++ [.error .valueError]) o1 = .ok (r, o2) := by
  obtain ⟨o, ho⟩ : ∃ o, construct F.family (fun _ => none) = .ok o := by cases F <;> exact ⟨_, rfl⟩
  obtain ⟨m, s, hs, hm, -⟩ := log_best F l u p hl hlu h0 h1
  set r : Opt := ⟨F.params m s, some ((-entropyOf (F.pdf m s) : ℝ) : EReal)⟩ with hr
  obtain ⟨i, r', v, e1, e2, -⟩ := maxent_selects (logErr F l u p) [r] [.error .valueError] (by simp) r (by simp) _
    ⟨⟨_, logErr_eq F l u p m s hs, by
      rw [constraint_is_mass _ _ _ _ hlu.le (fun h => by rw [(logBase_law F m s hs).1] at h; cases h), (logBase_law F m s hs).2]
      change |massOf (F.pdf m s) l u - p| < _
      rw [hm, sub_self, abs_zero]
      norm_num⟩, rfl⟩ (EReal.coe_ne_top _)
  have hmem := List.mem_of_getElem? e2
  simp only [List.mem_cons, List.not_mem_nil, or_false] at hmem
  subst hmem
  obtain ⟨o2, ho2⟩ := log_candidate_runs F o ho m s o1
  refine ⟨o, o2, r, [r], m, s, hs, hm, ho, fun r' hr' => by
    rw [List.mem_singleton] at hr'
    subst hr'
    exact ⟨m, s, hs, rfl, rfl⟩, ⟨r, by simp, rfl⟩, ?_⟩
  unfold optimizeMaxEnt
  rw [e1]
  simp only [Except.ok_bind']
  rw [ho2]
  rfl

/-- between 1 and 100 with mass 9/10 the best LogNormal has a median above 10 -/
example : ∃ m s, 0 < s ∧ massOf (LogFam.logNormal.pdf m s) 1 100 = 9 / 10 ∧ 10 < Real.exp m := by
  obtain ⟨m, s, hs, hm, hg, -⟩ := log_best .logNormal 1 100 (9 / 10) one_pos (by norm_num) (by norm_num) (by norm_num)
  refine ⟨m, s, hs, hm, ?_⟩
  rwa [show (1 : ℝ) * 100 = 10 ^ 2 by norm_num, Real.sqrt_sq (by norm_num)] at hg

/-- between 0 and 10 with mass 9/10 the best LogLogistic is `LogLogistic(10 / e, log 9)` -/
example : massOf (logLogisticPdf (10 / Real.exp 1) (Real.log 9)) 0 10 = 9 / 10 := by
  have := (loglogistic_from_zero 10 (9 / 10) (by norm_num) (by norm_num) (by norm_num)).2.1
  rwa [show (9 / 10 : ℝ) / (1 - 9 / 10) = 9 by norm_num] at this

end Verif.Props
