import Verif.Lemmas.VonMisesMass
import Verif.Spec.VonMisesBest
import Verif.Props.Widest

/-!
# maxent for VonMises (C150)
-/

namespace Verif.Props
open MeasureTheory Set Verif Verif.Param Verif.Optim Verif.NumFit Verif.Modifier Verif.Spec Verif.VMMass

theorem circ_mass_eq {mu k l u : ℝ} (hl : -Real.pi ≤ l) (hlu : l ≤ u) (hu : u ≤ Real.pi) :
    massOf (circPdf mu k) l u = window k ((u - l) / 2) ((l + u) / 2 - mu) / (2 * Real.pi * besselI0 k) :=
  mass_window hl hlu hu

theorem circ_centre_window (h k : ℝ) : window k h 0 / (2 * Real.pi * besselI0 k) = centre h k := by
  have := besselI0_pos k
  have := Real.pi_pos
  rw [window_zero, centre]
  field_simp

theorem circ_opposite_window (h k : ℝ) :
    window k h Real.pi / (2 * Real.pi * besselI0 k) = 1 - centre (Real.pi - h) k := by
  have := besselI0_pos k
  have := Real.pi_pos
  rw [window_pi, centre]
  field_simp

theorem circ_norm_pos (k : ℝ) : 0 < 2 * Real.pi * besselI0 k := by
  have := besselI0_pos k
  have := Real.pi_pos
  positivity

theorem circ_mid_near {mu k l u : ℝ} (hl : -Real.pi ≤ l) (hlu : l < u) (hu : u ≤ Real.pi) (hg : CircGood mu k) :
    |(l + u) / 2 - mu| < 2 * Real.pi := by
  obtain ⟨h1, h2, -⟩ := hg
  rw [abs_lt]
  constructor <;> linarith

theorem circ_at_opposite {mu k l u : ℝ} (hl : -Real.pi ≤ l) (hlu : l < u) (hu : u ≤ Real.pi)
    (ho : Opposite ((l + u) / 2) mu) : massOf (circPdf mu k) l u = 1 - centre (Real.pi - (u - l) / 2) k := by
  rw [circ_mass_eq hl hlu.le hu, ← circ_opposite_window, ← ho]
  congr 1
  rcases abs_choice ((l + u) / 2 - mu) with h | h <;> rw [h]
  rw [window_even]

theorem circ_at_mid {k l u : ℝ} (hl : -Real.pi ≤ l) (hlu : l < u) (hu : u ≤ Real.pi) :
    massOf (circPdf ((l + u) / 2) k) l u = centre ((u - l) / 2) k := by
  rw [circ_mass_eq hl hlu.le hu, sub_self, circ_centre_window]

private theorem mass_between {mu k l u : ℝ} (hl : -Real.pi ≤ l) (hlu : l < u) (hu : u ≤ Real.pi) (hul : u - l < 2 * Real.pi)
    (hg : CircGood mu k) :
    massOf (circPdf mu k) l u ≤ centre ((u - l) / 2) k ∧
    (massOf (circPdf mu k) l u = centre ((u - l) / 2) k → mu = (l + u) / 2) ∧
    1 - centre (Real.pi - (u - l) / 2) k ≤ massOf (circPdf mu k) l u ∧
    (massOf (circPdf mu k) l u = 1 - centre (Real.pi - (u - l) / 2) k → Opposite ((l + u) / 2) mu) := by
  have hpi := Real.pi_pos
  obtain ⟨d, hd, e, e0, e1, -⟩ := window_fold k ((u - l) / 2) _ (circ_mid_near hl hlu hu hg)
  have hn := circ_norm_pos k
  have anti := window_anti hg.2.2 (show 0 < (u - l) / 2 by linarith) (show (u - l) / 2 < Real.pi by linarith)
  have z : (0 : ℝ) ∈ Icc 0 Real.pi := left_mem_Icc.2 hpi.le
  have q : Real.pi ∈ Icc 0 Real.pi := right_mem_Icc.2 hpi.le
  rw [circ_mass_eq hl hlu.le hu, e, ← circ_centre_window, ← circ_opposite_window]
  refine ⟨?_, fun h => ?_, ?_, fun h => ?_⟩
  · exact div_le_div_of_nonneg_right (anti.antitoneOn z hd hd.1) hn.le
  · rw [div_left_inj' hn.ne'] at h
    have := e0.1 (anti.injOn hd z h)
    linarith
  · exact div_le_div_of_nonneg_right (anti.antitoneOn hd q hd.2) hn.le
  · rw [div_left_inj' hn.ne'] at h
    exact e1.1 (anti.injOn hd q h)

theorem circ_opposite_exists {l u : ℝ} (hl : -Real.pi ≤ l) (hlu : l < u) (hu : u ≤ Real.pi) :
    ∃ a, -Real.pi ≤ a ∧ a ≤ Real.pi ∧ Opposite ((l + u) / 2) a := by
  have hpi := Real.pi_pos
  rcases le_total 0 ((l + u) / 2) with h | h
  · refine ⟨(l + u) / 2 - Real.pi, by linarith, by linarith, ?_⟩
    rw [Spec.Opposite, sub_sub_cancel, abs_of_pos hpi]
  · refine ⟨(l + u) / 2 + Real.pi, by linarith, by linarith, ?_⟩
    rw [Spec.Opposite, sub_add_cancel_left, abs_neg, abs_of_pos hpi]

/-- **C150**: the entropy does not depend on the mode, and falls with the concentration. -/
theorem circ_entropy (mu k mu' k' : ℝ) (hk : 0 ≤ k) (hk' : 0 ≤ k') :
    entropyOf (circPdf mu' k') ≤ entropyOf (circPdf mu k) ↔ k ≤ k' := by
  constructor
  · intro h
    by_contra hc
    exact absurd (entropy_anti (mu := mu') (mu' := mu) hk' (not_le.1 hc)) (not_lt.2 h)
  · intro h
    rcases h.eq_or_lt with rfl | h
    · unfold circPdf
      rw [entropy_eq, entropy_eq]
    · exact (entropy_anti hk h).le

/-- **C150**: at a given concentration the mass of an interval is largest if the mode is in its middle, and only then, and
smallest if the mode is opposite to the middle, and only then. -/
theorem circ_mass_mode (mu k l u : ℝ) (hl : -Real.pi ≤ l) (hlu : l < u) (hu : u ≤ Real.pi) (hul : u - l < 2 * Real.pi)
    (hg : CircGood mu k) :
    massOf (circPdf mu k) l u ≤ massOf (circPdf ((l + u) / 2) k) l u ∧
    (massOf (circPdf mu k) l u = massOf (circPdf ((l + u) / 2) k) l u ↔ mu = (l + u) / 2) ∧
    ∀ a, Opposite ((l + u) / 2) a → massOf (circPdf a k) l u ≤ massOf (circPdf mu k) l u ∧
      (massOf (circPdf a k) l u = massOf (circPdf mu k) l u ↔ Opposite ((l + u) / 2) mu) := by
  obtain ⟨a1, a2, a3, a4⟩ := mass_between hl hlu hu hul hg
  rw [circ_at_mid hl hlu hu]
  refine ⟨a1, ⟨a2, fun h => by rw [h, circ_at_mid hl hlu hu]⟩, fun a ha => ?_⟩
  rw [circ_at_opposite hl hlu hu ha]
  exact ⟨a3, fun h => a4 h.symm, fun h => (circ_at_opposite hl hlu hu h).symm⟩

/-- **C150**: with the mode in the middle of the interval its mass grows strictly with the concentration, and it takes every
value between that of the uniform distribution and one. -/
theorem circ_mass_grows (l u : ℝ) (hl : -Real.pi ≤ l) (hlu : l < u) (hu : u ≤ Real.pi) (hul : u - l < 2 * Real.pi) :
    StrictMono (fun k => massOf (circPdf ((l + u) / 2) k) l u) ∧
    massOf (circPdf ((l + u) / 2) 0) l u = (u - l) / (2 * Real.pi) ∧
    ∀ p, (u - l) / (2 * Real.pi) < p → p < 1 → ∃ k, 0 < k ∧ massOf (circPdf ((l + u) / 2) k) l u = p := by
  have hpi := Real.pi_pos
  simp only [circ_at_mid hl hlu hu]
  refine ⟨centre_mono (by linarith) (by linarith), ?_, fun p h1 h2 => ?_⟩
  · rw [centre_zero, div_div]
  · exact centre_solve (by linarith) (by linarith) (by rw [div_div]; exact h1) h2

private theorem unique_of {l u p k0 : ℝ} {At : ℝ → Prop} (hk0 : 0 < k0) (hne : ∃ a, -Real.pi ≤ a ∧ a ≤ Real.pi ∧ At a)
    (hat : ∀ a, At a → massOf (circPdf a k0) l u = p)
    (hall : ∀ mu k, CircGood mu k → massOf (circPdf mu k) l u = p → k0 ≤ k ∧ (k = k0 → At mu)) (mu k : ℝ)
    (hg : CircGood mu k) : CircBest l u p mu k ↔ At mu ∧ k = k0 := by
  constructor
  · rintro ⟨hm, hb⟩
    obtain ⟨a, ha1, ha2, ha⟩ := hne
    have := hb a k0 ⟨ha1, ha2, hk0⟩ (hat a ha)
    rw [circ_entropy _ _ _ _ hg.2.2.le hk0.le] at this
    obtain ⟨b1, b2⟩ := hall mu k hg hm
    have e := le_antisymm this b1
    exact ⟨b2 e, e⟩
  · rintro ⟨ha, rfl⟩
    refine ⟨hat mu ha, fun mu' k' hg' hm' => ?_⟩
    rw [circ_entropy _ _ _ _ hg.2.2.le hg'.2.2.le]
    exact (hall mu' k' hg' hm').1

/-- **C150**: a mass above that of the uniform distribution: exactly one distribution has the largest entropy, and its mode is
the middle of the interval. -/
theorem circ_best_high (l u p : ℝ) (hl : -Real.pi ≤ l) (hlu : l < u) (hu : u ≤ Real.pi)
    (hp : (u - l) / (2 * Real.pi) < p) (hp1 : p < 1) :
    ∃ k0, 0 < k0 ∧ massOf (circPdf ((l + u) / 2) k0) l u = p ∧
      ∀ mu k, CircGood mu k → (CircBest l u p mu k ↔ mu = (l + u) / 2 ∧ k = k0) := by
  have hpi := Real.pi_pos
  have hul : u - l < 2 * Real.pi := by
    have := hp.trans hp1
    rwa [div_lt_one (by positivity)] at this
  obtain ⟨gm, -, gs⟩ := circ_mass_grows l u hl hlu hu hul
  obtain ⟨k0, hk0, e⟩ := gs p hp hp1
  refine ⟨k0, hk0, e, fun mu k hg => unique_of (At := fun a => a = (l + u) / 2) hk0
    ⟨_, by linarith, by linarith, rfl⟩ (fun a ha => by rw [ha, e]) (fun mu k hg hm => ?_) mu k hg⟩
  obtain ⟨a1, a2, -⟩ := circ_mass_mode mu k l u hl hlu hu hul hg
  refine ⟨?_, ?_⟩
  · rw [hm, ← e] at a1
    exact gm.le_iff_le.1 a1
  · rintro rfl
    exact a2.1 (hm.trans e.symm)

/-- **C150**: a mass below that of the uniform distribution: the distributions with the largest entropy have the mode opposite
to the middle of the interval and one and the same concentration. -/
theorem circ_best_low (l u p : ℝ) (hl : -Real.pi ≤ l) (hlu : l < u) (hu : u ≤ Real.pi) (hul : u - l < 2 * Real.pi)
    (hp0 : 0 < p) (hp : p < (u - l) / (2 * Real.pi)) :
    ∃ k0, 0 < k0 ∧ (∀ a, Opposite ((l + u) / 2) a → massOf (circPdf a k0) l u = p) ∧
      ∀ mu k, CircGood mu k → (CircBest l u p mu k ↔ Opposite ((l + u) / 2) mu ∧ k = k0) := by
  have hpi := Real.pi_pos
  have h1 : 0 < Real.pi - (u - l) / 2 := by linarith
  have h2 : Real.pi - (u - l) / 2 < Real.pi := by linarith
  obtain ⟨k0, hk0, e⟩ := centre_solve (p := 1 - p) h1 h2
    (by rw [div_lt_iff₀ hpi]; rw [lt_div_iff₀ (by positivity)] at hp; nlinarith) (by linarith)
  have gm := centre_mono h1 h2
  have hat : ∀ a, Opposite ((l + u) / 2) a → massOf (circPdf a k0) l u = p := fun a ha => by
    rw [circ_at_opposite hl hlu hu ha, e]; ring
  refine ⟨k0, hk0, hat, fun mu k hg => unique_of (At := fun a => Opposite ((l + u) / 2) a) hk0
    (circ_opposite_exists hl hlu hu) hat (fun mu k hg hm => ?_) mu k hg⟩
  obtain ⟨-, -, a3, a4⟩ := mass_between hl hlu hu hul hg
  refine ⟨?_, ?_⟩
  · rw [hm] at a3
    exact gm.le_iff_le.1 (by rw [e]; linarith)
  · rintro rfl
    exact a4 (by rw [hm, e]; ring)

/-- **C150**: the mass of the uniform distribution: every concentration has it at some mode, so that no distribution has the
largest entropy. -/
theorem circ_best_none (l u : ℝ) (hl : -Real.pi ≤ l) (hlu : l < u) (hu : u ≤ Real.pi) (hul : u - l < 2 * Real.pi) :
    (∀ k, 0 < k → ∃ mu, CircGood mu k ∧ massOf (circPdf mu k) l u = (u - l) / (2 * Real.pi)) ∧
    ∀ mu k, CircGood mu k → ¬ CircBest l u ((u - l) / (2 * Real.pi)) mu k := by
  have hpi := Real.pi_pos
  have first : ∀ k, 0 < k → ∃ mu, CircGood mu k ∧ massOf (circPdf mu k) l u = (u - l) / (2 * Real.pi) := by
    intro k hk
    have hn := circ_norm_pos k
    have c1 : (u - l) / (2 * Real.pi) < window k ((u - l) / 2) 0 / (2 * Real.pi * besselI0 k) := by
      have := centre_mono (h := (u - l) / 2) (by linarith) (by linarith) hk
      rw [centre_zero, div_div] at this
      rw [circ_centre_window]; exact this
    have c2 : window k ((u - l) / 2) Real.pi / (2 * Real.pi * besselI0 k) < (u - l) / (2 * Real.pi) := by
      have := centre_mono (h := Real.pi - (u - l) / 2) (by linarith) (by linarith) hk
      rw [centre_zero] at this
      rw [circ_opposite_window]
      have e : (Real.pi - (u - l) / 2) / Real.pi = 1 - (u - l) / (2 * Real.pi) := by field_simp
      linarith
    have hcont : Continuous fun c => window k ((u - l) / 2) c / (2 * Real.pi * besselI0 k) :=
      (continuous_iff_continuousAt.2 fun c => (window_deriv k _ c).continuousAt).div_const _
    obtain ⟨d, hd, e⟩ := intermediate_value_Ioo' hpi.le hcont.continuousOn ⟨c2, c1⟩
    rcases le_total 0 ((l + u) / 2) with h | h
    · refine ⟨(l + u) / 2 - d, ⟨by linarith [hd.2], by linarith [hd.1], hk⟩, ?_⟩
      rw [circ_mass_eq hl hlu.le hu, sub_sub_cancel]
      exact e
    · refine ⟨(l + u) / 2 + d, ⟨by linarith [hd.1], by linarith [hd.2], hk⟩, ?_⟩
      rw [circ_mass_eq hl hlu.le hu, sub_add_cancel_left, window_even]
      exact e
  refine ⟨first, fun mu k hg hb => ?_⟩
  obtain ⟨mu', hg', hm'⟩ := first (k / 2) (half_pos hg.2.2)
  have := hb.2 mu' _ hg' hm'
  rw [circ_entropy _ _ _ _ hg.2.2.le (half_pos hg.2.2).le] at this
  linarith [hg.2.2]

private theorem circ_candidate (o : Obj) (ho : construct (.simple .vonMises) (fun _ => none) = .ok o) (mu k : ℝ) (o1 : Obj) :
    ∃ o2, applyCandidate (.simple .vonMises) o.names (getFixedParams o).1 (getFixedParams o).2 [mu, k] o1 = .ok o2 ∧
      law (.simple .vonMises) o2 = [some mu, some k] := by
  simp [construct, parametrize, simpleParam, simpleFam, allNotNone, blank, Obj.setAll, Obj.set] at ho
  subst ho
  simp [applyCandidate, getFixedParams, splitStep, getParams, getParamsFrom, Function.update, Except.map, Except.ok_bind',
    parametrize, kwCall, List.lookup, simpleParam, simpleFam, simpleUpdate, allNotNone, Obj.setAll, Obj.set,
    Except.pure_eq, List.zipIdx, law, lawAttrs]

/-- **C150**: maxent for VonMises().  Let the runs completed before the first failure end at proper distributions and report
their entropies, and let one of them end at a distribution of largest entropy.  Then the distribution returned gives the interval
the mass up to 1e-4 and is at most as concentrated as that one; if the mass asked for less 1e-4 is above that of the uniform
distribution, it is more concentrated than the best distribution for that mass.  If the completed runs that pass the check give
the interval exactly the mass, the distribution returned has the largest entropy. -/
theorem maxent_vonmises (o : Obj) (ho : construct (.simple .vonMises) (fun _ => none) = .ok o)
    (b : ℝ → ℝ → Base) (hb : ∀ mu k, CircGood mu k → (b mu k).discrete = false ∧ (b mu k).law = vonMisesLaw mu k)
    (l u p : ℝ) (hl : -Real.pi ≤ l) (hlu : l < u) (hu : u ≤ Real.pi) (hul : u - l < 2 * Real.pi)
    (err : List ℝ → Option ℝ) (herr : ∀ mu k, CircGood mu k → err [mu, k] = some |probBound (b mu k) l u p none|)
    (done : List Opt) (rest : List (Except Err Opt)) (hrest : ∀ r, rest.head? = some r → ∃ e, r = .error e)
    (hdone : ∀ r ∈ done, ∃ mu k, CircGood mu k ∧ r.x = [mu, k] ∧ r.value = some ((-entropyOf (circPdf mu k) : ℝ) : EReal))
    (m0 k0 : ℝ) (hg0 : CircGood m0 k0) (hb0 : CircBest l u p m0 k0) (hopt : ∃ r ∈ done, r.x = [m0, k0])
    (o1 o2 : Obj) (r : Opt)
    (h : optimizeMaxEnt (.simple .vonMises) o.names (getFixedParams o).1 (getFixedParams o).2 err (done.map .ok ++ rest) o1 =
      .ok (r, o2)) :
    ∃ mu k, CircGood mu k ∧ law (.simple .vonMises) o2 = [some mu, some k] ∧
      |massOf (circPdf mu k) l u - p| < 1 / 10000 ∧ k ≤ k0 ∧
      (∀ k1, massOf (circPdf ((l + u) / 2) k1) l u = p - 1 / 10000 → k1 < k) ∧
      ((∀ mu' k', [mu', k'] ∈ done.map Opt.x → |massOf (circPdf mu' k') l u - p| < 1 / 10000 →
        massOf (circPdf mu' k') l u = p) → CircBest l u p mu k) := by
  have herr' : ∀ mu k, CircGood mu k → err [mu, k] = some |massOf (circPdf mu k) l u - p| := by
    intro mu k hg
    obtain ⟨e1, e2⟩ := hb mu k hg
    rw [herr mu k hg, constraint_is_mass _ _ _ _ hlu.le (by simp [e1]), e2]
    rfl
  obtain ⟨h2, h3⟩ := maxent_leaves_selected _ _ _ _ _ _ _ _ _ h
  obtain ⟨r0, hr0, hx0⟩ := hopt
  obtain ⟨m0', k0', -, hx0', hv0⟩ := hdone r0 hr0
  rw [hx0] at hx0'
  simp only [List.cons.injEq, and_true] at hx0'
  obtain ⟨rfl, rfl⟩ := hx0'
  have hfeas : Feasible err r0 ((-entropyOf (circPdf m0 k0) : ℝ) : EReal) :=
    ⟨⟨_, by rw [hx0]; exact herr' _ _ hg0, by rw [hb0.1, sub_self, abs_zero]; norm_num⟩, hv0⟩
  obtain ⟨i, r', v, e1, e2, e3, e4, -⟩ := maxent_selects err done rest hrest r0 hr0 _ hfeas (EReal.coe_ne_top _)
  rw [h2] at e1
  simp only [Except.ok.injEq] at e1
  subst e1
  have hrd := List.mem_of_getElem? e2
  obtain ⟨mu, k, hg, hx, hv⟩ := hdone r hrd
  obtain ⟨⟨e, he, hlt⟩, hv'⟩ := e3
  rw [hx, herr' _ _ hg] at he
  simp only [Option.some.injEq] at he
  subst he
  rw [hv] at hv'
  simp only [Option.some.injEq] at hv'
  have hle := e4 r0 hr0 _ hfeas
  rw [← hv', EReal.coe_le_coe_iff, neg_le_neg_iff, circ_entropy _ _ _ _ hg.2.2.le hg0.2.2.le] at hle
  obtain ⟨o3, ho3, hlaw⟩ := circ_candidate o ho mu k o1
  rw [hx, ho3] at h3
  simp only [Except.ok.injEq] at h3
  subst h3
  refine ⟨mu, k, hg, hlaw, hlt, hle, fun k1 hk1 => ?_, fun hex => ?_⟩
  · have a1 := (circ_mass_mode mu k l u hl hlu hu hul hg).1
    have gm := (circ_mass_grows l u hl hlu hu hul).1
    refine gm.lt_iff_lt.1 ?_
    rw [hk1]
    linarith [(abs_lt.1 hlt).1]
  · have hm := hex mu k (by rw [← hx]; exact List.mem_map_of_mem hrd) hlt
    refine ⟨hm, fun mu' k' hg' hm' => (hb0.2 mu' k' hg' hm').trans ?_⟩
    rw [circ_entropy _ _ _ _ hg.2.2.le hg0.2.2.le]
    exact hle

/-! The hypotheses are met. -/

/-- the distributions of the family as continuous bases -/
noncomputable def circBase (mu k : ℝ) : Base :=
  haveI : IsProbabilityMeasure (volume.withDensity fun y => ENNReal.ofReal (circPdf mu k y)) := VMLaw.prob mu k
  densityBase (circPdf mu k) (VMLaw.meas mu k) (VMLaw.nonneg mu k) ⊥ ⊤ (by simp)

theorem circBase_law (mu k : ℝ) : (circBase mu k).discrete = false ∧ (circBase mu k).law = vonMisesLaw mu k := ⟨rfl, rfl⟩

/-- `maxent(VonMises(), -1, 2, 0.9)`: the mode is one half if a run finds the distribution of largest entropy -/
example : ∃ (o o2 : Obj) (r : Opt) (err : List ℝ → Option ℝ) (k : ℝ),
    construct (.simple .vonMises) (fun _ => none) = .ok o ∧ 0 < k ∧
    (∀ mu k, CircGood mu k → err [mu, k] = some |probBound (circBase mu k) (-1) 2 (9 / 10) none|) ∧
    CircBest (-1) 2 (9 / 10) (1 / 2) k ∧
    optimizeMaxEnt (.simple .vonMises) o.names (getFixedParams o).1 (getFixedParams o).2 err
      [.ok ⟨[1 / 2, k], some ((-entropyOf (circPdf (1 / 2) k) : ℝ) : EReal)⟩, .error .valueError] o = .ok (r, o2) ∧
    law (.simple .vonMises) o2 = [some (1 / 2), some k] := by
  have hpi := Real.pi_gt_three
  obtain ⟨k, hk, hm, hbest⟩ := circ_best_high (-1) 2 (9 / 10) (by linarith) (by norm_num) (by linarith)
    (by rw [div_lt_iff₀ (by positivity)]; linarith) (by norm_num)
  rw [show ((-1 : ℝ) + 2) / 2 = 1 / 2 by norm_num] at hm hbest
  have hg : CircGood (1 / 2) k := ⟨by linarith, by linarith, hk⟩
  have hB := (hbest _ _ hg).2 ⟨rfl, rfl⟩
  set err : List ℝ → Option ℝ := fun x => match x with
    | [mu, k] => some |probBound (circBase mu k) (-1) 2 (9 / 10) none|
    | _ => none with herr
  obtain ⟨o, ho⟩ : ∃ o, construct (.simple .vonMises) (fun _ => none) = .ok o := ⟨_, rfl⟩
  set r : Opt := ⟨[1 / 2, k], some ((-entropyOf (circPdf (1 / 2) k) : ℝ) : EReal)⟩ with hr
  have e0 : err [1 / 2, k] = some 0 := by
    rw [herr]
    simp only
    rw [constraint_is_mass _ _ _ _ (by norm_num) (by simp [(circBase_law _ _).1]), (circBase_law _ _).2]
    change some |massOf (circPdf (1 / 2) k) (-1) 2 - 9 / 10| = _
    rw [hm, sub_self, abs_zero]
  obtain ⟨i, r', v, e1, e2, -⟩ := maxent_selects err [r] [.error .valueError] (by simp) r (by simp) _
    ⟨⟨0, e0, by norm_num⟩, rfl⟩ (EReal.coe_ne_top _)
  have hr' := List.mem_of_getElem? e2
  simp only [List.mem_cons, List.not_mem_nil, or_false] at hr'
  rw [hr'] at e1
  obtain ⟨o2, ho2, hlaw⟩ := circ_candidate o ho (1 / 2) k o
  refine ⟨o, o2, r, err, k, ho, hk, fun _ _ _ => rfl, hB, ?_, hlaw⟩
  unfold optimizeMaxEnt
  simp only [List.map_cons, List.map_nil, List.cons_append, List.nil_append] at e1
  rw [e1]
  simp only [Except.ok_bind']
  rw [ho2]
  rfl

/-- `maxent(VonMises(), -1, 1, 0.1)`: the mode is `π` or `-π` -/
example : ∃ k, 0 < k ∧ CircBest (-1) 1 (1 / 10) Real.pi k ∧ CircBest (-1) 1 (1 / 10) (-Real.pi) k := by
  have hpi := Real.pi_gt_three
  have hpi4 := Real.pi_le_four
  obtain ⟨k, hk, -, hbest⟩ := circ_best_low (-1) 1 (1 / 10) (by linarith) (by norm_num) (by linarith) (by linarith)
    (by norm_num) (by rw [lt_div_iff₀ (by positivity)]; linarith)
  refine ⟨k, hk, (hbest _ _ ⟨by linarith, le_rfl, hk⟩).2 ⟨?_, rfl⟩, (hbest _ _ ⟨le_rfl, by linarith, hk⟩).2 ⟨?_, rfl⟩⟩
  · simp [Spec.Opposite, abs_of_pos Real.pi_pos]
  · simp [Spec.Opposite, abs_of_pos Real.pi_pos]

end Verif.Props
