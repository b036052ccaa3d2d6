import Verif.Props.VonMisesBest
import Verif.Lemmas.PeakGiven

/-!
# maxent for VonMises with one parameter given (C151)
-/

namespace Verif.Props
open MeasureTheory Set Verif Verif.Param Verif.Optim Verif.NumFit Verif.Modifier Verif.Spec Verif.VMMass

private theorem mass_at_zero {mu l u : ℝ} (hl : -Real.pi ≤ l) (hlu : l ≤ u) (hu : u ≤ Real.pi) :
    massOf (circPdf mu 0) l u = (u - l) / (2 * Real.pi) := by
  rw [circ_mass_eq hl hlu hu]
  unfold window bump
  simp only [zero_mul, Real.exp_zero, intervalIntegral.integral_const, smul_eq_mul, mul_one, besselI0_zero]
  congr 1; ring

private theorem mass_cont {mu l u : ℝ} (hl : -Real.pi ≤ l) (hlu : l ≤ u) (hu : u ≤ Real.pi) :
    Continuous fun k => massOf (circPdf mu k) l u := by
  simp only [circ_mass_eq hl hlu hu]
  exact (window_cont _ _).div (continuous_const.mul besselI0_cont) fun k => (circ_norm_pos k).ne'

/-- **C151**: mu given, and a mass other than that of the uniform distribution: if any concentration gives the interval the
mass, the smallest one that does so exists, and it alone has the largest entropy. -/
theorem circ_mode_given (mu l u p : ℝ) (hl : -Real.pi ≤ l) (hlu : l < u) (hu : u ≤ Real.pi)
    (hp : p ≠ (u - l) / (2 * Real.pi)) (hex : ∃ k, 0 < k ∧ massOf (circPdf mu k) l u = p) :
    ∃ k0, 0 < k0 ∧ massOf (circPdf mu k0) l u = p ∧
      ∀ k, 0 < k → massOf (circPdf mu k) l u = p → k0 ≤ k ∧
        (k ≠ k0 → entropyOf (circPdf mu k) < entropyOf (circPdf mu k0)) := by
  set S := {k : ℝ | 0 ≤ k ∧ massOf (circPdf mu k) l u = p} with hS
  have hclosed : IsClosed S := isClosed_Ici.inter (isClosed_eq (mass_cont hl hlu.le hu) continuous_const)
  obtain ⟨k1, hk1, e1⟩ := hex
  have hmem : sInf S ∈ S := hclosed.csInf_mem ⟨k1, hk1.le, e1⟩ ⟨0, fun k hk => hk.1⟩
  have hle : ∀ k, 0 < k → massOf (circPdf mu k) l u = p → sInf S ≤ k := fun k hk e =>
    csInf_le ⟨0, fun k hk => hk.1⟩ ⟨hk.le, e⟩
  have hpos : 0 < sInf S := by
    refine lt_of_le_of_ne hmem.1 fun e => hp ?_
    have := hmem.2
    rw [← e, mass_at_zero hl hlu.le hu] at this
    exact this.symm
  refine ⟨sInf S, hpos, hmem.2, fun k hk e => ⟨hle k hk e, fun hne => ?_⟩⟩
  exact entropy_anti hpos.le (lt_of_le_of_ne (hle k hk e) (Ne.symm hne))

private theorem mass_near {mu d : ℝ} (hd : 0 < d) (h1 : -Real.pi ≤ mu - d) (h2 : mu + d ≤ Real.pi) (k : ℝ) :
    massOf (circPdf mu k) (mu - d) (mu + d) = centre d k := by
  have := circ_at_mid (k := k) h1 (by linarith : mu - d < mu + d) h2
  rwa [show (mu - d + (mu + d)) / 2 = mu by ring, show (mu + d - (mu - d)) / 2 = d by ring] at this

private theorem ivt {f : ℝ → ℝ} (hf : Continuous f) {p K : ℝ} (hK : 0 < K)
    (h : (f 0 < p ∧ p < f K) ∨ (f K < p ∧ p < f 0)) : ∃ k, 0 < k ∧ f k = p := by
  rcases h with h | h
  · obtain ⟨k, hk, e⟩ := intermediate_value_Ioo hK.le hf.continuousOn h
    exact ⟨k, hk.1, e⟩
  · obtain ⟨k, hk, e⟩ := intermediate_value_Ioo' hK.le hf.continuousOn h
    exact ⟨k, hk.1, e⟩

/-- **C151**: with mu inside the interval every mass between that of the uniform distribution and one can be had; with mu
outside every mass between zero and that of the uniform distribution. -/
theorem circ_mode_given_attain (mu l u p : ℝ) (hl : -Real.pi ≤ l) (hlu : l < u) (hu : u ≤ Real.pi) :
    (l < mu → mu < u → (u - l) / (2 * Real.pi) < p → p < 1 → ∃ k, 0 < k ∧ massOf (circPdf mu k) l u = p) ∧
    ((-Real.pi < mu ∧ mu < l) ∨ (u < mu ∧ mu < Real.pi) → 0 < p → p < (u - l) / (2 * Real.pi) →
      ∃ k, 0 < k ∧ massOf (circPdf mu k) l u = p) := by
  have hpi := Real.pi_pos
  have hz := mass_at_zero (mu := mu) hl hlu.le hu
  have hc := mass_cont (mu := mu) hl hlu.le hu
  constructor
  · intro h1 h2 h3 h4
    set d := min (mu - l) (u - mu) with hd
    have d1 : d ≤ mu - l := min_le_left _ _
    have d2 : d ≤ u - mu := min_le_right _ _
    have d0 : 0 < d := lt_min (by linarith) (by linarith)
    rcases lt_or_ge d Real.pi with hdp | hdp
    · obtain ⟨K, hK, hlt⟩ := centre_large d0 hdp h4
      refine ivt hc hK (.inl ⟨by rw [hz]; exact h3, hlt.trans_le ?_⟩)
      rw [← mass_near (mu := mu) d0 (by linarith) (by linarith)]
      have := VMLaw.prob mu K
      exact measureReal_mono (μ := vonMisesLaw mu K) (Icc_subset_Icc (by linarith) (by linarith))
    · exfalso
      have : 2 * Real.pi ≤ u - l := by linarith
      have : 1 ≤ (u - l) / (2 * Real.pi) := by rw [le_div_iff₀ (by positivity)]; linarith
      linarith
  · intro h1 h2 h3
    obtain ⟨d, d0, dp, dl, du, hdis⟩ : ∃ d, 0 < d ∧ d < Real.pi ∧ -Real.pi ≤ mu - d ∧ mu + d ≤ Real.pi ∧
        Disjoint (Icc l u) (Icc (mu - d) (mu + d)) := by
      rcases h1 with ⟨a1, a2⟩ | ⟨a1, a2⟩
      · refine ⟨min (mu + Real.pi) (l - mu) / 2, ?_, ?_, ?_, ?_, ?_⟩
        · exact half_pos (lt_min (by linarith) (by linarith))
        · have := min_le_left (mu + Real.pi) (l - mu)
          have := min_le_right (mu + Real.pi) (l - mu)
          linarith
        · have := min_le_left (mu + Real.pi) (l - mu)
          linarith
        · have := min_le_right (mu + Real.pi) (l - mu)
          linarith
        · rw [Set.disjoint_left]
          rintro x ⟨b1, -⟩ ⟨-, b2⟩
          have := min_le_right (mu + Real.pi) (l - mu)
          linarith
      · refine ⟨min (Real.pi - mu) (mu - u) / 2, ?_, ?_, ?_, ?_, ?_⟩
        · exact half_pos (lt_min (by linarith) (by linarith))
        · have := min_le_left (Real.pi - mu) (mu - u)
          have := min_le_right (Real.pi - mu) (mu - u)
          linarith
        · have := min_le_right (Real.pi - mu) (mu - u)
          linarith
        · have := min_le_left (Real.pi - mu) (mu - u)
          linarith
        · rw [Set.disjoint_left]
          rintro x ⟨-, b1⟩ ⟨b2, -⟩
          have := min_le_right (Real.pi - mu) (mu - u)
          linarith
    obtain ⟨K, hK, hlt⟩ := centre_large (p := 1 - p) d0 dp (by linarith)
    refine ivt hc hK (.inr ⟨?_, by rw [hz]; exact h3⟩)
    have hprob := VMLaw.prob mu K
    have e1 : (vonMisesLaw mu K).real (Icc l u ∪ Icc (mu - d) (mu + d)) =
        massOf (circPdf mu K) l u + massOf (circPdf mu K) (mu - d) (mu + d) :=
      measureReal_union hdis measurableSet_Icc
    have e2 : (vonMisesLaw mu K).real (Icc l u ∪ Icc (mu - d) (mu + d)) ≤ 1 := measureReal_le_one
    rw [mass_near (mu := mu) d0 dl du] at e1
    linarith

/-- **C151**: kappa given: the masses that can be had are those between the one with mu opposite to the middle of the interval
and the one with mu in the middle; the values of mu that give the same mass are those at the same distance from the middle on
the circle, and all have the same entropy. -/
theorem circ_kappa_given (k l u : ℝ) (hk : 0 < k) (hl : -Real.pi ≤ l) (hlu : l < u) (hu : u ≤ Real.pi)
    (hul : u - l < 2 * Real.pi) :
    (∀ a p, Opposite ((l + u) / 2) a → ((∃ mu, CircGood mu k ∧ massOf (circPdf mu k) l u = p) ↔
      massOf (circPdf a k) l u ≤ p ∧ p ≤ massOf (circPdf ((l + u) / 2) k) l u)) ∧
    (∀ mu mu', CircGood mu k → CircGood mu' k → (massOf (circPdf mu' k) l u = massOf (circPdf mu k) l u ↔
      Real.cos (mu' - (l + u) / 2) = Real.cos (mu - (l + u) / 2))) ∧
    ∀ mu mu', entropyOf (circPdf mu' k) = entropyOf (circPdf mu k) := by
  have hpi := Real.pi_pos
  refine ⟨fun a p ha => ⟨?_, fun ⟨h1, h2⟩ => ?_⟩, fun mu mu' hg hg' => ?_, fun mu mu' => ?_⟩
  · rintro ⟨mu, hg, rfl⟩
    obtain ⟨a1, -, a3⟩ := circ_mass_mode mu k l u hl hlu hu hul hg
    exact ⟨(a3 a ha).1, a1⟩
  · rw [circ_at_opposite hl hlu hu ha, ← circ_opposite_window] at h1
    rw [circ_at_mid hl hlu hu, ← circ_centre_window] at h2
    have hcont : Continuous fun c => window k ((u - l) / 2) c / (2 * Real.pi * besselI0 k) :=
      (continuous_iff_continuousAt.2 fun c => (window_deriv k _ c).continuousAt).div_const _
    obtain ⟨d, hd, e⟩ := intermediate_value_Icc' hpi.le hcont.continuousOn ⟨h1, h2⟩
    rcases le_total 0 ((l + u) / 2) with h | h
    · refine ⟨(l + u) / 2 - d, ⟨by linarith [hd.2], by linarith [hd.1], hk⟩, ?_⟩
      rw [circ_mass_eq hl hlu.le hu, sub_sub_cancel]
      exact e
    · refine ⟨(l + u) / 2 + d, ⟨by linarith [hd.1], by linarith [hd.2], hk⟩, ?_⟩
      rw [circ_mass_eq hl hlu.le hu, sub_add_cancel_left, window_even]
      exact e
  · obtain ⟨d, hd, e, -, -, ec⟩ := window_fold k ((u - l) / 2) _ (circ_mid_near hl hlu hu hg)
    obtain ⟨d', hd', e', -, -, ec'⟩ := window_fold k ((u - l) / 2) _ (circ_mid_near hl hlu hu hg')
    have anti := window_anti hk (show 0 < (u - l) / 2 by linarith) (show (u - l) / 2 < Real.pi by linarith)
    rw [circ_mass_eq hl hlu.le hu, circ_mass_eq hl hlu.le hu, div_left_inj' (circ_norm_pos k).ne', e, e', anti.injOn.eq_iff hd' hd,
      ← Real.cos_neg (mu' - _), ← Real.cos_neg (mu - _), neg_sub, neg_sub, ← ec, ← ec', Real.injOn_cos.eq_iff hd' hd]
  · exact le_antisymm ((circ_entropy _ _ _ _ hk.le hk.le).2 le_rfl) ((circ_entropy _ _ _ _ hk.le hk.le).2 le_rfl)

private theorem mode_candidate (mu : ℝ) (o : Obj)
    (ho : construct (.simple .vonMises) (fun n => if n = "mu" then some mu else none) = .ok o) (k : ℝ) (o1 o2 : Obj)
    (h : applyCandidate (.simple .vonMises) o.names (getFixedParams o).1 (getFixedParams o).2 [k] o1 = .ok o2) :
    law (.simple .vonMises) o2 = [some mu, some k] := by
  simp [construct, parametrize, simpleParam, simpleFam, allNotNone, blank, Obj.setAll, Obj.set] at ho
  subst ho
  simp [applyCandidate, getFixedParams, splitStep, getParams, getParamsFrom, Function.update, Except.map, Except.ok_bind',
    parametrize, kwCall, List.lookup, simpleParam, simpleFam, simpleUpdate, allNotNone, Obj.setAll, Obj.set, List.zipIdx] at h
  subst h
  simp [law, lawAttrs, Obj.setAll, Obj.set, Function.update]

private theorem kappa_candidate (k : ℝ) (o : Obj)
    (ho : construct (.simple .vonMises) (fun n => if n = "kappa" then some k else none) = .ok o) (mu : ℝ) (o1 o2 : Obj)
    (h : applyCandidate (.simple .vonMises) o.names (getFixedParams o).1 (getFixedParams o).2 [mu] o1 = .ok o2) :
    law (.simple .vonMises) o2 = [some mu, some k] := by
  simp [construct, parametrize, simpleParam, simpleFam, allNotNone, blank, Obj.setAll, Obj.set] at ho
  subst ho
  simp [applyCandidate, getFixedParams, splitStep, getParams, getParamsFrom, Function.update, Except.map, Except.ok_bind',
    parametrize, kwCall, List.lookup, simpleParam, simpleFam, simpleUpdate, allNotNone, Obj.setAll, Obj.set, List.zipIdx] at h
  subst h
  simp [law, lawAttrs, Obj.setAll, Obj.set, Function.update]

/-- **C151**: maxent for VonMises with mu given.  Let the runs completed before the first failure end at the positive
concentrations `ends`, in this order, and report their entropies.  The distribution returned keeps mu; if one of the runs gives
the interval the mass up to 1e-4, its kappa is the smallest of all those that do so; otherwise it is the one of the first run. -/
theorem maxent_vonmises_mode_given (mu : ℝ) (o : Obj)
    (ho : construct (.simple .vonMises) (fun n => if n = "mu" then some mu else none) = .ok o)
    (b : ℝ → Base) (hb : ∀ k, 0 < k → (b k).discrete = false ∧ (b k).law = vonMisesLaw mu k) (l u p : ℝ) (hlu : l < u)
    (err : List ℝ → Option ℝ) (herr : ∀ k, 0 < k → err [k] = some |probBound (b k) l u p none|)
    (done : List Opt) (rest : List (Except Err Opt)) (hrest : ∀ r, rest.head? = some r → ∃ e, r = .error e)
    (ends : List ℝ) (hends : done.map (fun r => r.x) = ends.map fun v => [v])
    (hdone : ∀ r ∈ done, ∃ k, 0 < k ∧ r.x = [k] ∧ r.value = some ((-entropyOf (circPdf mu k) : ℝ) : EReal))
    (o1 o2 : Obj) (r : Opt)
    (h : optimizeMaxEnt (.simple .vonMises) o.names (getFixedParams o).1 (getFixedParams o).2 err (done.map .ok ++ rest) o1 =
      .ok (r, o2)) :
    ∃ k ∈ ends, 0 < k ∧ law (.simple .vonMises) o2 = [some mu, some k] ∧
      ((∃ k' ∈ ends, |massOf (circPdf mu k') l u - p| < 1 / 10000) → |massOf (circPdf mu k) l u - p| < 1 / 10000 ∧
        ∀ k' ∈ ends, |massOf (circPdf mu k') l u - p| < 1 / 10000 → k ≤ k') ∧
      ((∀ k' ∈ ends, 1 / 10000 ≤ |massOf (circPdf mu k') l u - p|) → ends.head? = some k) := by
  obtain ⟨h1, h2⟩ := maxent_leaves_selected _ _ _ _ _ _ _ _ _ h
  obtain ⟨k, hk, hx, i, hi, t1, t2⟩ := Verif.LocScale.maxent_one b (circPdf mu) (fun k => 0 < k) hb l u p hlu err herr done rest hrest ends hends
    hdone r h1
  have hpos : ∀ k' ∈ ends, 0 < k' := by
    intro k' hk'
    have : [k'] ∈ done.map fun r => r.x := by rw [hends]; exact List.mem_map.2 ⟨k', hk', rfl⟩
    obtain ⟨r', hr', e⟩ := List.mem_map.1 this
    obtain ⟨w, hw, hxw, -⟩ := hdone r' hr'
    rw [e] at hxw
    simp only [List.cons.injEq, and_true] at hxw
    rw [hxw]; exact hw
  refine ⟨k, List.mem_of_getElem? hi, hk, mode_candidate mu o ho k o1 o2 (by rw [← hx]; exact h2), fun hp => ?_,
    fun hp => by rw [List.head?_eq_getElem?, ← t2 hp, hi]⟩
  obtain ⟨a, c, -⟩ := t1 hp
  exact ⟨a, fun k' hk' hlt => (circ_entropy _ _ _ _ hk.le (hpos k' hk').le).1 (c k' hk' hlt)⟩

/-- **C151**: maxent for VonMises with kappa given.  All entropies are the same, so the distribution returned is the one of the
first completed run that gives the interval the mass up to 1e-4, or of the first run if none does. -/
theorem maxent_vonmises_kappa_given (k : ℝ) (hk : 0 < k) (o : Obj)
    (ho : construct (.simple .vonMises) (fun n => if n = "kappa" then some k else none) = .ok o)
    (b : ℝ → Base) (hb : ∀ mu, CircGood mu k → (b mu).discrete = false ∧ (b mu).law = vonMisesLaw mu k) (l u p : ℝ) (hlu : l < u)
    (err : List ℝ → Option ℝ) (herr : ∀ mu, CircGood mu k → err [mu] = some |probBound (b mu) l u p none|)
    (done : List Opt) (rest : List (Except Err Opt)) (hrest : ∀ r, rest.head? = some r → ∃ e, r = .error e)
    (ends : List ℝ) (hends : done.map (fun r => r.x) = ends.map fun v => [v])
    (hdone : ∀ r ∈ done, ∃ mu, CircGood mu k ∧ r.x = [mu] ∧ r.value = some ((-entropyOf (circPdf mu k) : ℝ) : EReal))
    (o1 o2 : Obj) (r : Opt)
    (h : optimizeMaxEnt (.simple .vonMises) o.names (getFixedParams o).1 (getFixedParams o).2 err (done.map .ok ++ rest) o1 =
      .ok (r, o2)) :
    ∃ mu i, ends[i]? = some mu ∧ law (.simple .vonMises) o2 = [some mu, some k] ∧
      ((∃ m' ∈ ends, |massOf (circPdf m' k) l u - p| < 1 / 10000) → |massOf (circPdf mu k) l u - p| < 1 / 10000 ∧
        ∀ j m', j < i → ends[j]? = some m' → 1 / 10000 ≤ |massOf (circPdf m' k) l u - p|) ∧
      ((∀ m' ∈ ends, 1 / 10000 ≤ |massOf (circPdf m' k) l u - p|) → i = 0) := by
  obtain ⟨h1, h2⟩ := maxent_leaves_selected _ _ _ _ _ _ _ _ _ h
  obtain ⟨mu, -, hx, i, hi, t1, t2⟩ := Verif.LocScale.maxent_one b (fun mu => circPdf mu k) (fun mu => CircGood mu k) hb l u p hlu err herr done
    rest hrest ends hends hdone r h1
  refine ⟨mu, i, hi, kappa_candidate k o ho mu o1 o2 (by rw [← hx]; exact h2), fun hp => ?_, t2⟩
  obtain ⟨a, -, c⟩ := t1 hp
  refine ⟨a, fun j m' hj hm' => ?_⟩
  by_contra hc
  have := c j m' hj hm' (not_le.1 hc)
  exact absurd ((circ_entropy m' k mu k hk.le hk.le).2 le_rfl) (not_le.2 this)

/-! The hypotheses are met. -/

/-- `maxent(VonMises(mu=1), -1, 2, 0.8)`: there is a concentration, and runs that end there -/
example : ∃ (k : ℝ) (o : Obj) (err : List ℝ → Option ℝ) (done : List Opt), 0 < k ∧
    construct (.simple .vonMises) (fun n => if n = "mu" then some 1 else none) = .ok o ∧ o.names = ["mu", "kappa"] ∧
    massOf (circPdf 1 k) (-1) 2 = 4 / 5 ∧
    (∀ k, 0 < k → err [k] = some |probBound (circBase 1 k) (-1) 2 (4 / 5) none|) ∧
    done.map (fun r => r.x) = [k].map (fun v => [v]) ∧
    ∀ r ∈ done, ∃ k, 0 < k ∧ r.x = [k] ∧ r.value = some ((-entropyOf (circPdf 1 k) : ℝ) : EReal) := by
  have hpi := Real.pi_gt_three
  obtain ⟨k, hk, e⟩ := (circ_mode_given_attain 1 (-1) 2 (4 / 5) (by linarith) (by norm_num) (by linarith)).1 (by norm_num)
    (by norm_num) (by rw [div_lt_iff₀ (by positivity)]; linarith) (by norm_num)
  refine ⟨k, _, fun x => match x with
    | [k] => some |probBound (circBase 1 k) (-1) 2 (4 / 5) none|
    | _ => none, [⟨[k], some ((-entropyOf (circPdf 1 k) : ℝ) : EReal)⟩], hk, rfl, rfl, e, fun _ _ => rfl, rfl, ?_⟩
  intro r hr
  simp only [List.mem_cons, List.not_mem_nil, or_false] at hr
  subst hr
  exact ⟨k, hk, rfl, rfl⟩

/-- VonMises(kappa=1) on [-1, 1]: the mass at mu = 1/2 is had at mu = -1/2 too, and nowhere else -/
example (mu : ℝ) (h1 : -Real.pi ≤ mu) (h2 : mu ≤ Real.pi) :
    massOf (circPdf mu 1) (-1) 1 = massOf (circPdf (1 / 2) 1) (-1) 1 ↔ |mu| = 1 / 2 := by
  have hpi := Real.pi_gt_three
  have h := (circ_kappa_given 1 (-1) 1 one_pos (by linarith) (by norm_num) (by linarith) (by linarith)).2.1 (1 / 2) mu
    ⟨by linarith, by linarith, one_pos⟩ ⟨h1, h2, one_pos⟩
  rw [h]
  simp only [neg_add_cancel, zero_div, sub_zero]
  rw [← Real.cos_abs mu, Real.injOn_cos.eq_iff ⟨abs_nonneg mu, abs_le.2 ⟨h1, h2⟩⟩ ⟨by norm_num, by linarith⟩]

end Verif.Props
