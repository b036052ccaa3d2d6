import Verif.Lemmas.Widest
import Verif.Props.LocScale
import Verif.Lemmas.LawSimple

/-!
# maxent for Uniform and Triangular (C125)
-/

namespace Verif.Props
open MeasureTheory Verif Verif.Param Verif.Optim Verif.NumFit Verif.Modifier Verif.Spec Verif.Lemmas.Widest

private theorem root_props {p : ℝ} (h0 : 0 < p) (h1 : p ≤ 1) :
    0 ≤ Real.sqrt (1 - p) ∧ Real.sqrt (1 - p) < 1 ∧ Real.sqrt (1 - p) ^ 2 = 1 - p := by
  refine ⟨Real.sqrt_nonneg _, ?_, Real.sq_sqrt (by linarith)⟩
  rw [Real.sqrt_lt' one_pos]; linarith

private theorem wide_pos {F : WideFam} {x : List ℝ} (h : F.Good x) : 0 < F.wide x := by
  unfold WideFam.Good at h
  split at h
  · exact sub_pos.2 h
  · exact sub_pos.2 h.2.2
  · exact h.elim

private theorem wide_entropy {F : WideFam} : ∃ k : ℝ, ∀ x, F.Good x → entropyOf (F.pdf x) = Real.log (F.wide x) + k := by
  cases F
  · refine ⟨0, fun x h => ?_⟩
    unfold WideFam.Good at h
    split at h <;> simp_all
    rw [WideFam.pdf, WideFam.wide, uniform_entropy h]
  · refine ⟨1 / 2 - Real.log 2, fun x h => ?_⟩
    unfold WideFam.Good at h
    split at h <;> simp_all
    rw [WideFam.pdf, WideFam.wide, tri_entropy h.1 h.2.1 h.2.2, Real.log_div (sub_pos.2 h.2.2).ne' two_ne_zero]
    ring

private theorem entropy_le {F : WideFam} {x y : List ℝ} (hx : F.Good x) (hy : F.Good y) :
    entropyOf (F.pdf x) ≤ entropyOf (F.pdf y) ↔ F.wide x ≤ F.wide y := by
  obtain ⟨k, hk⟩ := wide_entropy (F := F)
  rw [hk x hx, hk y hy, add_le_add_iff_right, Real.log_le_log_iff (wide_pos hx) (wide_pos hy)]

/-- **C125**: no distribution of the family with mass `p` on `[l, u]` has a longer support than `longest`, and those of that
length are exactly those of `Best`. -/
theorem widest (F : WideFam) (x : List ℝ) (hx : F.Good x) (l u p : ℝ) (hlu : l < u) (h0 : 0 < p) (h1 : p ≤ 1) :
    (massOf (F.pdf x) l u = p → F.wide x ≤ F.longest l u p) ∧
    ((massOf (F.pdf x) l u = p ∧ F.wide x = F.longest l u p) ↔ F.Best x l u p) := by
  cases F
  · unfold WideFam.Good at hx
    split at hx <;> simp_all
    rename_i a b
    simp only [WideFam.pdf, WideFam.wide, WideFam.longest, WideFam.Best]
    refine ⟨fun hm => (uniform_widest hx h0 hm).1, fun ⟨hm, hw⟩ => ?_, fun ⟨e1, e2, e3⟩ => ⟨uniform_best hx hlu e1 e2 e3, ?_⟩⟩
    · obtain ⟨e1, e2⟩ := (uniform_widest hx h0 hm).2 hw
      refine ⟨e1, e2, ?_⟩
      rw [hw]; field_simp
    · rw [e3]; field_simp
  · unfold WideFam.Good at hx
    split at hx <;> simp_all
    rename_i a c b
    obtain ⟨r0, r1, r2⟩ := root_props h0 h1
    have hr' : 0 < 1 - Real.sqrt (1 - p) := by linarith
    simp only [WideFam.pdf, WideFam.wide, WideFam.longest, WideFam.Best]
    obtain ⟨g1, g2, g3⟩ := hx
    refine ⟨fun hm => ?_, fun ⟨hm, hw⟩ => ?_, fun ⟨e1, e2⟩ => ⟨tri_best g1 g2 g3 r0 r1 r2 e1 e2, ?_⟩⟩
    · rw [le_div_iff₀ hr']
      exact (tri_widest g1 g2 g3 h0 r0 r1 r2 hm).1
    · rw [eq_div_iff hr'.ne'] at hw
      exact (tri_widest g1 g2 g3 h0 r0 r1 r2 hm).2 hw
    · rw [eq_div_iff hr'.ne', e1, e2]
      ring

/-- **C125**: a distribution with mass `p` on `[l, u]` has the largest entropy of the family among those exactly if it is one
of `Best`. -/
theorem widest_entropy (F : WideFam) (x : List ℝ) (hx : F.Good x) (l u p : ℝ) (hlu : l < u) (h0 : 0 < p) (h1 : p ≤ 1) :
    (massOf (F.pdf x) l u = p ∧ ∀ y, F.Good y → massOf (F.pdf y) l u = p → entropyOf (F.pdf y) ≤ entropyOf (F.pdf x)) ↔
      F.Best x l u p := by
  obtain ⟨a1, a2⟩ := widest F x hx l u p hlu h0 h1
  constructor
  · rintro ⟨hm, hbest⟩
    -- some best distribution exists
    obtain ⟨y, hy, hyb⟩ : ∃ y, F.Good y ∧ F.Best y l u p := by
      cases F
      · refine ⟨[l, l + (u - l) / p], ?_, le_rfl, ?_, ?_⟩
        · have := sub_pos.2 hlu
          simp only [WideFam.Good]
          have : 0 < (u - l) / p := by positivity
          linarith
        · have : u - l ≤ (u - l) / p := by rw [le_div_iff₀ h0]; nlinarith
          linarith
        · field_simp; ring
      · obtain ⟨r0, r1, r2⟩ := root_props h0 h1
        have hr' : 0 < 1 - Real.sqrt (1 - p) := by linarith
        refine ⟨[l, l, (u - Real.sqrt (1 - p) * l) / (1 - Real.sqrt (1 - p))], ?_, by simp, ?_⟩
        · have : l < (u - Real.sqrt (1 - p) * l) / (1 - Real.sqrt (1 - p)) := by rw [lt_div_iff₀ hr']; linarith
          exact ⟨le_rfl, this.le, this⟩
        · field_simp; ring
    obtain ⟨b1, b2⟩ := widest F y hy l u p hlu h0 h1
    obtain ⟨c1, c2⟩ := b2.2 hyb
    have := (entropy_le hy hx).1 (hbest y hy c1)
    exact a2.1 ⟨hm, le_antisymm (a1 hm) (by rw [← c2]; exact this)⟩
  · intro hb
    obtain ⟨c1, c2⟩ := a2.2 hb
    refine ⟨c1, fun y hy hm => (entropy_le hy hx).2 ?_⟩
    rw [c2]
    exact (widest F y hy l u p hlu h0 h1).1 hm

/-- **C125**: the position is not determined.  The lower ends of the best uniform distributions are all the numbers of an
interval of length `(u - l) * (1 / p - 1)`. -/
theorem uniform_free (l u p : ℝ) (hlu : l < u) (h0 : 0 < p) (a : ℝ) :
    (∃ b, WideFam.uniform.Good [a, b] ∧ WideFam.uniform.Best [a, b] l u p) ↔ l - (u - l) * (1 / p - 1) ≤ a ∧ a ≤ l := by
  have hul := sub_pos.2 hlu
  have e : (u - l) * (1 / p - 1) = (u - l) / p - (u - l) := by ring
  rw [e]
  constructor
  · rintro ⟨b, hg, e1, e2, e3⟩
    refine ⟨?_, e1⟩
    have : (u - l) / p = b - a := by rw [e3]; field_simp
    rw [this]; linarith
  · rintro ⟨e1, e2⟩
    have : 0 < (u - l) / p := by positivity
    refine ⟨a + (u - l) / p, by simp only [WideFam.Good]; linarith, e2, by linarith, ?_⟩
    field_simp; ring

/-- **C125**: the modes of the best triangular distributions are all the numbers of the interval. -/
theorem triangular_free (l u p : ℝ) (hlu : l < u) (h0 : 0 < p) (h1 : p ≤ 1) (c : ℝ) :
    (∃ a b, WideFam.triangular.Good [a, c, b] ∧ WideFam.triangular.Best [a, c, b] l u p) ↔ l ≤ c ∧ c ≤ u := by
  obtain ⟨r0, r1, -⟩ := root_props h0 h1
  have hr' : 0 < 1 - Real.sqrt (1 - p) := by linarith
  constructor
  · rintro ⟨a, b, ⟨g1, g2, g3⟩, e1, e2⟩
    rw [e1, e2]
    constructor <;> nlinarith
  · rintro ⟨e1, e2⟩
    have q1 : (l - Real.sqrt (1 - p) * c) / (1 - Real.sqrt (1 - p)) ≤ c := by rw [div_le_iff₀ hr']; linarith
    have q2 : c ≤ (u - Real.sqrt (1 - p) * c) / (1 - Real.sqrt (1 - p)) := by rw [le_div_iff₀ hr']; linarith
    have q3 : (l - Real.sqrt (1 - p) * c) / (1 - Real.sqrt (1 - p)) < (u - Real.sqrt (1 - p) * c) / (1 - Real.sqrt (1 - p)) :=
      div_lt_div_of_pos_right (by linarith) hr'
    exact ⟨_, _, ⟨q1, q2, q3⟩, by field_simp; ring, by field_simp; ring⟩

private theorem wide_candidate (F : WideFam) (o : Obj) (ho : construct F.family (fun _ => none) = .ok o) (x : List ℝ)
    (hx : F.Good x) (o1 : Obj) :
    ∃ o2, applyCandidate F.family o.names (getFixedParams o).1 (getFixedParams o).2 x o1 = .ok o2 ∧
      law F.family o2 = x.map some := by
  unfold WideFam.Good at hx
  split at hx
  all_goals first | exact hx.elim | skip
  all_goals
    simp [construct, WideFam.family, parametrize, simpleParam, simpleFam, allNotNone, blank, Obj.setAll, Obj.set,
      Except.ok_bind', Except.pure_eq] at ho
    subst ho
    simp [applyCandidate, getFixedParams, splitStep, getParams, getParamsFrom, Function.update, Except.map, Except.ok_bind',
      WideFam.family, parametrize, kwCall, List.lookup, simpleParam, simpleFam, simpleUpdate, allNotNone, Obj.setAll, Obj.set,
      Except.pure_eq, List.zipIdx, law, lawAttrs]

/-- **C125**: maxent for Uniform() and Triangular().  Let the runs completed before the first failure end at proper
distributions and report their entropies, and let one of them end at a best distribution.  Then the distribution returned gives
the interval the mass up to 1e-4, and its support is at least as long as that of the best ones and (for `p` above 1e-4) shorter
than that of the best ones for `p - 1e-4`.  If the completed runs that pass the check give the interval exactly the mass, the
distribution returned is one of the best ones. -/
theorem maxent_wide (F : WideFam) (o : Obj) (ho : construct F.family (fun _ => none) = .ok o)
    (b : List ℝ → Base) (hb : ∀ x, F.Good x → (b x).discrete = false ∧ (b x).law = ofPdf (F.pdf x))
    (l u p : ℝ) (hlu : l < u) (h0 : 0 < p) (h1 : p ≤ 1)
    (err : List ℝ → Option ℝ) (herr : ∀ x, F.Good x → err x = some |probBound (b x) l u p none|)
    (done : List Opt) (rest : List (Except Err Opt)) (hrest : ∀ r, rest.head? = some r → ∃ e, r = .error e)
    (hdone : ∀ r ∈ done, F.Good r.x ∧ r.value = some ((-entropyOf (F.pdf r.x) : ℝ) : EReal))
    (hopt : ∃ r ∈ done, F.Best r.x l u p)
    (o1 o2 : Obj) (r : Opt)
    (h : optimizeMaxEnt F.family o.names (getFixedParams o).1 (getFixedParams o).2 err (done.map .ok ++ rest) o1 =
      .ok (r, o2)) :
    ∃ x, F.Good x ∧ law F.family o2 = x.map some ∧ |massOf (F.pdf x) l u - p| < 1 / 10000 ∧
      F.longest l u p ≤ F.wide x ∧ (1 / 10000 < p → F.wide x < F.longest l u (p - 1 / 10000)) ∧
      ((∀ r' ∈ done, |massOf (F.pdf r'.x) l u - p| < 1 / 10000 → massOf (F.pdf r'.x) l u = p) → F.Best x l u p) := by
  have hul := sub_pos.2 hlu
  have herr' : ∀ x, F.Good x → err x = some |massOf (F.pdf x) l u - p| := by
    intro x hx
    obtain ⟨e1, e2⟩ := hb x hx
    rw [herr x hx, constraint_is_mass _ _ _ _ hlu.le (by simp [e1]), e2]
    rfl
  obtain ⟨h2, h3⟩ := maxent_leaves_selected _ _ _ _ _ _ _ _ _ h
  obtain ⟨r0, hr0, hb0⟩ := hopt
  obtain ⟨hg0, hv0⟩ := hdone r0 hr0
  obtain ⟨w1, w2⟩ := (widest F r0.x hg0 l u p hlu h0 h1).2.2 hb0
  have hfeas : Feasible err r0 ((-entropyOf (F.pdf r0.x) : ℝ) : EReal) :=
    ⟨⟨_, herr' _ hg0, by rw [w1, sub_self, abs_zero]; norm_num⟩, hv0⟩
  obtain ⟨i, r', v, e1, e2, e3, e4, -⟩ := maxent_selects err done rest hrest r0 hr0 _ hfeas (EReal.coe_ne_top _)
  rw [h2] at e1
  simp only [Except.ok.injEq] at e1
  subst e1
  have hrd := List.mem_of_getElem? e2
  obtain ⟨hg, hv⟩ := hdone r hrd
  obtain ⟨⟨e, he, hlt⟩, hv'⟩ := e3
  rw [herr' _ hg] at he
  simp only [Option.some.injEq] at he
  subst he
  rw [hv] at hv'
  simp only [Option.some.injEq] at hv'
  have hle := e4 r0 hr0 _ hfeas
  rw [← hv', EReal.coe_le_coe_iff, neg_le_neg_iff, entropy_le hg0 hg, w2] at hle
  obtain ⟨o3, ho3, hlaw⟩ := wide_candidate F o ho r.x hg o1
  rw [h3] at ho3
  simp only [Except.ok.injEq] at ho3
  subst ho3
  refine ⟨r.x, hg, hlaw, hlt, hle, fun hp => ?_, fun hex => ?_⟩
  · have hq := (abs_lt.1 hlt).1
    have hq' := (abs_lt.1 hlt).2
    have hm1 : massOf (F.pdf r.x) l u ≤ 1 := by
      obtain ⟨e1, e2⟩ := hb r.x hg
      have := (b r.x).prob
      unfold massOf
      rw [← e2]
      exact measureReal_le_one
    refine ((widest F r.x hg l u _ hlu (by linarith) hm1).1 rfl).trans_lt ?_
    cases F
    · simp only [WideFam.longest]
      exact div_lt_div_of_pos_left hul (by linarith) (by linarith)
    · simp only [WideFam.longest]
      have s1 : Real.sqrt (1 - massOf (WideFam.triangular.pdf r.x) l u) < Real.sqrt (1 - (p - 1 / 10000)) :=
        Real.sqrt_lt_sqrt (by linarith) (by linarith)
      have s2 : Real.sqrt (1 - (p - 1 / 10000)) < 1 := by rw [Real.sqrt_lt' one_pos]; linarith
      exact div_lt_div_of_pos_left hul (by linarith) (by linarith)
  · have hm := hex r hrd hlt
    obtain ⟨c1, c2⟩ := widest F r.x hg l u p hlu h0 h1
    exact c2.1 ⟨hm, le_antisymm (c1 hm) hle⟩

/-- **C125**: which of the best distributions is returned depends on the runs only: each of them is returned if the runs end
there. -/
theorem maxent_wide_any (F : WideFam) (o : Obj) (ho : construct F.family (fun _ => none) = .ok o)
    (b : List ℝ → Base) (hb : ∀ x, F.Good x → (b x).discrete = false ∧ (b x).law = ofPdf (F.pdf x))
    (l u p : ℝ) (hlu : l < u) (h0 : 0 < p) (h1 : p ≤ 1)
    (err : List ℝ → Option ℝ) (herr : ∀ x, F.Good x → err x = some |probBound (b x) l u p none|)
    (x : List ℝ) (hx : F.Good x) (hbest : F.Best x l u p) (o1 : Obj) :
    ∃ o2, optimizeMaxEnt F.family o.names (getFixedParams o).1 (getFixedParams o).2 err
        [.ok ⟨x, some ((-entropyOf (F.pdf x) : ℝ) : EReal)⟩] o1 = .ok (⟨x, some ((-entropyOf (F.pdf x) : ℝ) : EReal)⟩, o2) ∧
      law F.family o2 = x.map some := by
  obtain ⟨w1, -⟩ := (widest F x hx l u p hlu h0 h1).2.2 hbest
  have herr' : err x = some 0 := by
    obtain ⟨e1, e2⟩ := hb x hx
    rw [herr x hx, constraint_is_mass _ _ _ _ hlu.le (by simp [e1]), e2]
    change some |massOf _ _ _ - p| = _
    rw [w1, sub_self, abs_zero]
  obtain ⟨i, r', v, e1, e2, -⟩ := maxent_selects err [⟨x, some ((-entropyOf (F.pdf x) : ℝ) : EReal)⟩] [] (by simp)
    ⟨x, some ((-entropyOf (F.pdf x) : ℝ) : EReal)⟩ (by simp) _
    ⟨⟨0, herr', by norm_num⟩, rfl⟩ (EReal.coe_ne_top _)
  have hr := List.mem_of_getElem? e2
  simp only [List.mem_cons, List.not_mem_nil, or_false] at hr
  subst hr
  obtain ⟨o2, ho2, hl⟩ := wide_candidate F o ho x hx o1
  refine ⟨o2, ?_, hl⟩
  unfold optimizeMaxEnt
  simp only [List.map_cons, List.map_nil, List.append_nil] at e1
  rw [e1]
  simp only [Except.ok_bind']
  rw [ho2]
  rfl

/-- **C125**: Uniform with its lower end given (not above the interval, as `_check_endpoints` demands): there is a distribution
with the mass exactly if `p` is at most the mass of the interval ending at `u`; the one with the largest entropy is then
unique. -/
theorem uniform_lower_given (l u p a : ℝ) (hlu : l < u) (h0 : 0 < p) (ha : a ≤ l) :
    ((∃ b, a < b ∧ massOf (uniformPdf a b) l u = p) ↔ p ≤ (u - l) / (u - a)) ∧
    (p ≤ (u - l) / (u - a) → massOf (uniformPdf a (a + (u - l) / p)) l u = p ∧
      ∀ b, a < b → massOf (uniformPdf a b) l u = p → b ≠ a + (u - l) / p →
        entropyOf (uniformPdf a b) < entropyOf (uniformPdf a (a + (u - l) / p))) := by
  have hul := sub_pos.2 hlu
  have hua : 0 < u - a := by linarith
  have hw : 0 < (u - l) / p := by positivity
  have key : p ≤ (u - l) / (u - a) → massOf (uniformPdf a (a + (u - l) / p)) l u = p := by
    intro hp
    rw [le_div_iff₀ hua] at hp
    have : u - a ≤ (u - l) / p := by rw [le_div_iff₀ h0]; linarith
    exact uniform_best (by linarith) hlu ha (by linarith) (by field_simp; ring)
  refine ⟨⟨fun ⟨b, hab, hm⟩ => ?_, fun hp => ⟨_, by linarith, key hp⟩⟩, fun hp => ⟨key hp, fun b hab hm hne => ?_⟩⟩
  · have hd := sub_pos.2 hab
    rw [uniform_mass hab, max_eq_left ha] at hm
    rw [← hm, div_le_div_iff₀ hd hua]
    rcases le_total b u with h | h
    · rw [min_eq_right h]
      rcases le_total (b - l) 0 with h' | h'
      · rw [max_eq_right h', zero_mul]; positivity
      · rw [max_eq_left h']; nlinarith
    · rw [min_eq_left h, max_eq_left hul.le]
      nlinarith
  · rw [uniform_entropy hab, uniform_entropy (by linarith)]
    refine Real.log_lt_log (sub_pos.2 hab) (lt_of_le_of_ne ?_ fun e => hne (by linarith))
    have := (uniform_widest hab h0 hm).1
    linarith

/-! The hypotheses are met. -/

theorem widePdf_prob {F : WideFam} {x : List ℝ} (hx : F.Good x) : IsProbabilityMeasure (ofPdf (F.pdf x)) := by
  unfold WideFam.Good at hx
  split at hx
  · exact (Verif.Law.uniform hx).prob
  · exact (Verif.Law.triangular hx.1 hx.2.1 hx.2.2).prob
  · exact hx.elim

theorem widePdf_meas (F : WideFam) (x : List ℝ) : Measurable (F.pdf x) := by
  unfold WideFam.pdf
  split
  · rw [uniform_ind]; exact measurable_const.indicator measurableSet_Icc
  · unfold triangularPdf
    refine Measurable.ite measurableSet_Iio measurable_const (Measurable.ite measurableSet_Iio (by fun_prop)
      (Measurable.ite (measurableSet_singleton _) measurable_const (Measurable.ite measurableSet_Iic (by fun_prop)
        measurable_const)))
  · exact measurable_const

theorem widePdf_nonneg {F : WideFam} {x : List ℝ} (hx : F.Good x) (y : ℝ) : 0 ≤ F.pdf x y := by
  unfold WideFam.Good at hx
  split at hx
  · have := sub_pos.2 hx
    simp only [WideFam.pdf, uniformPdf]
    split_ifs <;> positivity
  · exact tri_nonneg hx.1 hx.2.1 hx.2.2 y
  · exact hx.elim

/-- the distributions of a family as continuous bases -/
noncomputable def wideBase (F : WideFam) (x : List ℝ) : Base :=
  open Classical in
  if hx : F.Good x then
    haveI : IsProbabilityMeasure (volume.withDensity fun y => ENNReal.ofReal (F.pdf x y)) := widePdf_prob hx
    densityBase (F.pdf x) (widePdf_meas F x) (widePdf_nonneg hx) ⊥ ⊤ (by simp)
  else unif 0 1 (by norm_num)

theorem wideBase_law (F : WideFam) (x : List ℝ) (hx : F.Good x) :
    (wideBase F x).discrete = false ∧ (wideBase F x).law = ofPdf (F.pdf x) := by
  unfold wideBase
  rw [dif_pos hx]
  exact ⟨rfl, rfl⟩

/-- `maxent(Uniform(), 0, 10, 0.8)` may return Uniform(-2.5, 10) or Uniform(0, 12.5); both are among the runs here -/
example : ∃ (o o2 : Obj) (r : Opt) (err : List ℝ → Option ℝ) (done : List Opt),
    construct WideFam.uniform.family (fun _ => none) = .ok o ∧
    (∀ x, WideFam.uniform.Good x → err x = some |probBound (wideBase .uniform x) 0 10 (4 / 5) none|) ∧
    (∀ r ∈ done, WideFam.uniform.Good r.x ∧ r.value = some ((-entropyOf (WideFam.uniform.pdf r.x) : ℝ) : EReal)) ∧
    done.map Opt.x = [[-5 / 2, 10], [0, 25 / 2]] ∧ (∀ r ∈ done, WideFam.uniform.Best r.x 0 10 (4 / 5)) ∧
    optimizeMaxEnt WideFam.uniform.family o.names (getFixedParams o).1 (getFixedParams o).2 err
      (done.map .ok ++ [.error .valueError]) o = .ok (r, o2) := by
  set val : List ℝ → Option EReal := fun x => some ((-entropyOf (WideFam.uniform.pdf x) : ℝ) : EReal) with hval
  set err : List ℝ → Option ℝ := fun x => some |probBound (wideBase .uniform x) 0 10 (4 / 5) none| with herr
  obtain ⟨o, ho⟩ : ∃ o, construct WideFam.uniform.family (fun _ => none) = .ok o := ⟨_, rfl⟩
  have hg1 : WideFam.uniform.Good [-5 / 2, 10] := by norm_num [WideFam.Good]
  have hg2 : WideFam.uniform.Good [0, 25 / 2] := by norm_num [WideFam.Good]
  have hb1 : WideFam.uniform.Best [-5 / 2, 10] 0 10 (4 / 5) := by norm_num [WideFam.Best]
  have hb2 : WideFam.uniform.Best [0, 25 / 2] 0 10 (4 / 5) := by norm_num [WideFam.Best]
  obtain ⟨w1, -⟩ := (widest .uniform _ hg1 0 10 (4 / 5) (by norm_num) (by norm_num) (by norm_num)).2.2 hb1
  obtain ⟨i, r, v, e1, e2, -⟩ := maxent_selects err
    [⟨[-5 / 2, 10], val [-5 / 2, 10]⟩, ⟨[0, 25 / 2], val [0, 25 / 2]⟩] [.error .valueError] (by simp)
    ⟨[-5 / 2, 10], val [-5 / 2, 10]⟩ (by simp) _
    ⟨⟨_, rfl, by
      rw [constraint_is_mass _ _ _ _ (by norm_num) (by simp [(wideBase_law _ _ hg1).1]), (wideBase_law _ _ hg1).2]
      change |massOf _ 0 10 - _| < _
      rw [w1]; norm_num⟩, rfl⟩ (EReal.coe_ne_top _)
  have hr := List.mem_of_getElem? e2
  have hgr : WideFam.uniform.Good r.x := by
    simp only [List.mem_cons, List.not_mem_nil, or_false] at hr
    rcases hr with rfl | rfl
    · exact hg1
    · exact hg2
  obtain ⟨o2, ho2, -⟩ := wide_candidate .uniform o ho r.x hgr o
  refine ⟨o, o2, r, err, [⟨[-5 / 2, 10], val [-5 / 2, 10]⟩, ⟨[0, 25 / 2], val [0, 25 / 2]⟩], ho, fun x _ => rfl, ?_, ?_, ?_, ?_⟩
  · intro r hr
    simp only [List.mem_cons, List.not_mem_nil, or_false] at hr
    rcases hr with rfl | rfl
    · exact ⟨hg1, rfl⟩
    · exact ⟨hg2, rfl⟩
  · rfl
  · intro r hr
    simp only [List.mem_cons, List.not_mem_nil, or_false] at hr
    rcases hr with rfl | rfl
    · exact hb1
    · exact hb2
  · unfold optimizeMaxEnt
    rw [e1]
    simp only [Except.ok_bind']
    rw [ho2]
    rfl

/-- `maxent(Triangular(), 0, 10, 0.75)` may return Triangular(-4, 4, 16) or Triangular(-10, 10, 10): means 16/3 and 10/3 -/
example : WideFam.triangular.Good [-4, 4, 16] ∧ WideFam.triangular.Best [-4, 4, 16] 0 10 (3 / 4) ∧
    WideFam.triangular.Good [-10, 10, 10] ∧ WideFam.triangular.Best [-10, 10, 10] 0 10 (3 / 4) ∧
    massOf (triangularPdf (-4) 4 16) 0 10 = 3 / 4 := by
  have e : Real.sqrt (1 - 3 / 4) = 1 / 2 := by
    rw [show (1 : ℝ) - 3 / 4 = (1 / 2) ^ 2 by norm_num, Real.sqrt_sq (by norm_num)]
  have hg : WideFam.triangular.Good [-4, 4, 16] := by norm_num [WideFam.Good]
  have hb : WideFam.triangular.Best [-4, 4, 16] 0 10 (3 / 4) := by
    simp only [WideFam.Best, e]; norm_num
  refine ⟨hg, hb, by norm_num [WideFam.Good], by simp only [WideFam.Best, e]; norm_num, ?_⟩
  exact ((widest .triangular _ hg 0 10 (3 / 4) (by norm_num) (by norm_num) (by norm_num)).2.2 hb).1

/-- `maxent(Uniform(lower=-2), 0, 10, 0.8)`: Uniform(-2, 10.5); a mass of 0.9 is out of reach -/
example : massOf (uniformPdf (-2) (-2 + (10 - 0) / (4 / 5))) 0 10 = 4 / 5 ∧
    ¬ ∃ b, -2 < b ∧ massOf (uniformPdf (-2) b) 0 10 = 9 / 10 := by
  refine ⟨((uniform_lower_given 0 10 (4 / 5) (-2) (by norm_num) (by norm_num) (by norm_num)).2 (by norm_num)).1, ?_⟩
  rw [(uniform_lower_given 0 10 (9 / 10) (-2) (by norm_num) (by norm_num) (by norm_num)).1]
  norm_num

end Verif.Props
