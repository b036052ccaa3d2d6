import Verif.Lemmas.CountOne
import Verif.Props.HalfScale

/-!
# C118: the answers for Poisson and Geometric distributions
-/

namespace Verif.Props
open MeasureTheory Verif Verif.Spec Verif.Param Verif.Optim Verif.NumFit Verif.Modifier Verif.CountOne Set

/-! ### Which parameters give an interval a mass -/

private theorem centropy {F : CountFam} {v v' : ℝ} (hv : F.Ok v) (hv' : F.Ok v') (h : F.mean v < F.mean v') :
    entropyPmf (F.pmf v) < entropyPmf (F.pmf v') := by
  cases F with
  | poisson => exact poisson_entropy hv h
  | geometric =>
    refine geo_entropy hv'.1 ?_ hv.2
    simp only [CountFam.mean] at h
    exact (one_div_lt_one_div hv.1 hv'.1).1 h

/-- **C118**: the larger the mean, the larger the entropy. -/
theorem count_entropy (F : CountFam) (v v' : ℝ) (hv : F.Ok v) (hv' : F.Ok v') :
    entropyPmf (F.pmf v) < entropyPmf (F.pmf v') ↔ F.mean v < F.mean v' := by
  constructor
  · intro h
    by_contra hc
    rcases (not_lt.1 hc).lt_or_eq with h' | h'
    · exact absurd (centropy hv' hv h') (not_lt.2 h.le)
    · have : v' = v := by
        cases F with
        | poisson => exact h'
        | geometric =>
          simp only [CountFam.mean] at h'
          exact inv_injective (by rw [← one_div, ← one_div]; exact h')
      rw [this] at h
      exact lt_irrefl _ h
  · exact centropy hv hv'

/-- **C118**: an interval that starts at the smallest value: every mass below one is that of exactly one distribution. -/
theorem count_from_first (F : CountFam) (u : ℕ) (p : ℝ) (hu : F.first ≤ u) (h0 : 0 < p) (h1 : p < 1) :
    ∃ v, F.Ok v ∧ ∀ v', F.Ok v' → (countMass (F.pmf v') F.first u = p ↔ v' = v) := by
  cases F with
  | poisson =>
    have anti : StrictAntiOn (below (u + 1)) (Ici 0) := by
      refine strictAntiOn_of_deriv_neg (convex_Ici _) (below_cont _).continuousOn fun x hx => ?_
      rw [interior_Ici] at hx
      rw [(below_deriv x u).deriv]
      exact neg_neg_of_pos (poisson_pos hx u)
    obtain ⟨z, hz⟩ := (((below_lim (u + 1)).eventually (gt_mem_nhds h0)).and (Filter.eventually_gt_atTop 0)).exists
    obtain ⟨y, hy, ey⟩ := intermediate_value_Icc' (le_of_lt hz.2) (below_cont (u + 1)).continuousOn (show p ∈ _ from
      ⟨hz.1.le, by rw [below_zero]; exact h1.le⟩)
    have hy0 : 0 < y := by
      rcases hy.1.lt_or_eq with h | h
      · exact h
      · rw [← h, below_zero] at ey; linarith
    refine ⟨y, hy0, fun v' hv' => ?_⟩
    have hv'' : 0 < v' := hv'
    simp only [CountFam.pmf, CountFam.first]
    rw [poisson_mass hv'' (Nat.zero_le _)]
    simp only [below, Finset.range_zero, Finset.sum_empty, sub_zero]
    change below (u + 1) v' = p ↔ _
    rw [← ey]
    exact anti.injOn.eq_iff hv''.le hy.1
  | geometric =>
    simp only [CountFam.first] at hu ⊢
    have u0 : u ≠ 0 := by omega
    have hq : 0 < 1 - p := by linarith
    have r0 : 0 < (1 - p) ^ ((u : ℝ)⁻¹) := Real.rpow_pos_of_pos hq _
    have r1 : (1 - p) ^ ((u : ℝ)⁻¹) < 1 := Real.rpow_lt_one hq.le (by linarith) (by positivity)
    have rp : ((1 - p) ^ ((u : ℝ)⁻¹)) ^ u = 1 - p := Real.rpow_inv_natCast_pow hq.le u0
    refine ⟨1 - (1 - p) ^ ((u : ℝ)⁻¹), ⟨by linarith, by linarith⟩, fun v' hv' => ?_⟩
    simp only [CountFam.pmf]
    rw [geo_mass hv'.1 hv'.2 le_rfl hu, Nat.sub_self, pow_zero]
    constructor
    · intro h
      have e : (1 - v') ^ u = ((1 - p) ^ ((u : ℝ)⁻¹)) ^ u := by rw [rp]; linarith
      have := (pow_left_inj₀ (by linarith [hv'.2]) r0.le u0).1 e
      linarith
    · rintro rfl
      rw [sub_sub_cancel, rp, sub_sub_cancel]

private noncomputable def pmass (l u : ℕ) (m : ℝ) : ℝ := below (u + 1) m - below (l + 1) m

private theorem pmass_shape {l u : ℕ} (h : l < u) {x₀ : ℝ} (hx : 0 < x₀) (he : x₀ ^ (u - l) = u.factorial / l.factorial) :
    StrictMonoOn (pmass l u) (Icc 0 x₀) ∧ StrictAntiOn (pmass l u) (Ici x₀) := by
  have hd : ∀ m, HasDerivAt (pmass l u) (poissonPmf m l - poissonPmf m u) m := by
    intro m
    refine ((below_deriv m u).sub (below_deriv m l)).congr_deriv ?_
    ring
  have hc : Continuous (pmass l u) := (below_cont _).sub (below_cont _)
  have hsign : ∀ m, 0 < m → poissonPmf m l - poissonPmf m u =
      Real.exp (-m) * m ^ l / u.factorial * (u.factorial / l.factorial - m ^ (u - l)) := by
    intro m hm
    unfold poissonPmf
    have : m ^ u = m ^ l * m ^ (u - l) := by rw [← pow_add]; congr 1; omega
    rw [this]
    have h1 : (u.factorial : ℝ) ≠ 0 := by positivity
    have h2 : (l.factorial : ℝ) ≠ 0 := by positivity
    field_simp
  have n0 : u - l ≠ 0 := by omega
  constructor
  · refine strictMonoOn_of_deriv_pos (convex_Icc _ _) hc.continuousOn fun x hx' => ?_
    rw [interior_Icc] at hx'
    rw [(hd x).deriv, hsign x hx'.1, ← he]
    have := hx'.1
    have h3 := pow_lt_pow_left₀ hx'.2 this.le n0
    have h4 := sub_pos.2 h3
    positivity
  · refine strictAntiOn_of_deriv_neg (convex_Ici _) hc.continuousOn fun x hx' => ?_
    rw [interior_Ici] at hx'
    have x0 := hx.trans hx'
    rw [(hd x).deriv, hsign x x0, ← he]
    have h3 := pow_lt_pow_left₀ hx' hx.le n0
    exact mul_neg_of_pos_of_neg (by positivity) (by linarith)

/-- **C118**: of all Poisson distributions the one whose mean is the geometric mean of `l, ..., u` gives the interval the
largest mass. -/
theorem poisson_peak (l u : ℕ) (hl : 1 ≤ l) (h : l ≤ u) (m : ℝ) (hm : 0 < m)
    (hne : m ≠ (u.factorial / (l - 1).factorial : ℝ) ^ (((u + 1 - l : ℕ) : ℝ)⁻¹)) :
    countMass (poissonPmf m) l u <
      countMass (poissonPmf ((u.factorial / (l - 1).factorial : ℝ) ^ (((u + 1 - l : ℕ) : ℝ)⁻¹))) l u := by
  obtain ⟨l, rfl⟩ := Nat.exists_eq_succ_of_ne_zero (by omega : l ≠ 0)
  simp only [Nat.succ_eq_add_one, Nat.add_sub_cancel, Nat.add_sub_add_right] at *
  have q0 : 0 < (u.factorial / l.factorial : ℝ) := by positivity
  set x₀ := (u.factorial / l.factorial : ℝ) ^ (((u - l : ℕ) : ℝ)⁻¹) with hx₀
  have x0 : 0 < x₀ := Real.rpow_pos_of_pos q0 _
  have he : x₀ ^ (u - l) = u.factorial / l.factorial := Real.rpow_inv_natCast_pow q0.le (by omega)
  obtain ⟨a, b⟩ := pmass_shape (by omega : l < u) x0 he
  rw [poisson_mass hm h, poisson_mass x0 h]
  change pmass l u m < pmass l u x₀
  rcases lt_or_gt_of_ne hne with h' | h'
  · exact a ⟨hm.le, h'.le⟩ ⟨x0.le, le_rfl⟩ h'
  · exact b (mem_Ici.2 le_rfl) (mem_Ici.2 h'.le) h'

/-- the number of trials as a waiting time -/
private theorem geo_wait {l u : ℕ} (hl : 2 ≤ l) (h : l ≤ u) {s : ℝ} (hs : 0 < s) :
    countMass (geometricPmf (1 - Real.exp (-(1 / s)))) l u = massOf (HalfFam.exponential.pdf s) ((l - 1 : ℕ) : ℝ) u := by
  have e0 : Real.exp (-(1 / s)) < 1 := (show ∀ {x : ℝ}, x < 0 → Real.exp x < 1 from fun h => by rw [← Real.exp_zero]; exact Real.exp_lt_exp.2 h) (by
    have : 0 < 1 / s := by positivity
    linarith)
  rw [geo_mass (by linarith) (by linarith [Real.exp_pos (-(1 / s))]) (by omega) h, sub_sub_cancel, ← Real.exp_nat_mul,
    ← Real.exp_nat_mul, HalfScale.half_folded .exponential trivial hs,
    HalfScale.mass_folded (HalfScale.unfolded_peak .exponential trivial) hs (by positivity) (by
      have : l - 1 ≤ u := by omega
      exact_mod_cast this)]
  simp only [HalfScale.unfolded]
  rw [HalfScale.around_laplace (by positivity), HalfScale.around_laplace (by positivity)]
  rw [show ((l - 1 : ℕ) : ℝ) * -(1 / s) = -(((l - 1 : ℕ) : ℝ) / s) by ring, show (u : ℝ) * -(1 / s) = -((u : ℝ) / s) by ring]
  ring

private theorem geo_scale {v : ℝ} (h0 : 0 < v) (h1 : v < 1) : ∃ s, 0 < s ∧ v = 1 - Real.exp (-(1 / s)) := by
  have hl : Real.log (1 - v) < 0 := Real.log_neg (by linarith) (by linarith)
  refine ⟨-(1 / Real.log (1 - v)), by rw [neg_pos]; exact one_div_neg.2 hl, ?_⟩
  rw [one_div, inv_neg, neg_neg, one_div, inv_inv, Real.exp_log (by linarith), sub_sub_cancel]

private theorem geo_of_scale {s : ℝ} (hs : 0 < s) : 0 < 1 - Real.exp (-(1 / s)) ∧ 1 - Real.exp (-(1 / s)) < 1 := by
  have : 0 < 1 / s := by positivity
  have h := (show ∀ {x : ℝ}, x < 0 → Real.exp x < 1 from fun h => by rw [← Real.exp_zero]; exact Real.exp_lt_exp.2 h) (show -(1 / s) < 0 by linarith)
  have := Real.exp_pos (-(1 / s))
  constructor <;> linarith

private theorem geo_scale_lt {s s' : ℝ} (hs : 0 < s) (h : s < s') : 1 - Real.exp (-(1 / s')) < 1 - Real.exp (-(1 / s)) := by
  have : 1 / s' < 1 / s := one_div_lt_one_div_of_lt hs h
  have := Real.exp_lt_exp.2 (show -(1 / s) < -(1 / s') by linarith)
  linarith

/-- **C118**: an interval that starts above the smallest value: there is a largest mass, smaller than one and reached by one
distribution only; every smaller mass is that of exactly two distributions, and the one with the larger mean has the larger
entropy. -/
theorem count_two (F : CountFam) (l u : ℕ) (hl : F.first < l) (h : l ≤ u) :
    ∃ v₀ top, F.Ok v₀ ∧ 0 < top ∧ top < 1 ∧ countMass (F.pmf v₀) l u = top ∧
      (∀ v, F.Ok v → v ≠ v₀ → countMass (F.pmf v) l u < top) ∧
      ∀ p, 0 < p → p < top → ∃ v₁ v₂, F.Ok v₁ ∧ F.Ok v₂ ∧ F.mean v₁ < F.mean v₀ ∧ F.mean v₀ < F.mean v₂ ∧
        (∀ v, F.Ok v → (countMass (F.pmf v) l u = p ↔ v = v₁ ∨ v = v₂)) ∧
        entropyPmf (F.pmf v₁) < entropyPmf (F.pmf v₂) := by
  cases F with
  | poisson =>
    simp only [CountFam.first] at hl
    set x₀ := (u.factorial / (l - 1).factorial : ℝ) ^ (((u + 1 - l : ℕ) : ℝ)⁻¹) with hx₀
    have q0 : 0 < (u.factorial / (l - 1).factorial : ℝ) := by positivity
    have x0 : 0 < x₀ := Real.rpow_pos_of_pos q0 _
    refine ⟨x₀, countMass (poissonPmf x₀) l u, x0, ?_, ?_, rfl, fun v hv hne => poisson_peak l u hl h v hv hne, ?_⟩
    · rw [countMass_eq fun k => (poisson_pos x0 k).le]
      exact Finset.sum_pos (fun k _ => poisson_pos x0 k) ⟨l, by simp [h]⟩
    · rw [countMass_eq fun k => (poisson_pos x0 k).le]
      have h1 := (poisson_sum x0).summable.sum_le_tsum (insert 0 (Finset.Icc l u)) fun k _ => (poisson_pos x0 k).le
      rw [(poisson_sum x0).tsum_eq, Finset.sum_insert (by simp; omega)] at h1
      linarith [poisson_pos x0 0]
    · intro p hp ht
      obtain ⟨l, rfl⟩ := Nat.exists_eq_succ_of_ne_zero (by omega : l ≠ 0)
      simp only [Nat.succ_eq_add_one, Nat.add_sub_cancel, Nat.add_sub_add_right] at *
      have hul : u - l ≠ 0 := by omega
      have he : x₀ ^ (u - l) = u.factorial / l.factorial := by rw [hx₀]; exact Real.rpow_inv_natCast_pow q0.le hul
      obtain ⟨a, b⟩ := pmass_shape (by omega : l < u) x0 he
      rw [poisson_mass x0 h] at ht
      have lim : Filter.Tendsto (pmass l u) Filter.atTop (nhds 0) := by
        have := (below_lim (u + 1)).sub (below_lim (l + 1))
        rwa [sub_zero] at this
      obtain ⟨v₁, v₂, c1, c2, c3, c4⟩ := twice (M := pmass l u) ((below_cont _).sub (below_cont _)).continuousOn
        (by rw [pmass, below_zero, below_zero, sub_self]) lim x0 a b hp ht
      have c5 : 0 < v₂ := x0.trans c3
      refine ⟨v₁, v₂, c1, c5, c2, c3, fun v hv => ?_, poisson_entropy c1 (c2.trans c3)⟩
      simp only [CountFam.pmf]
      rw [poisson_mass hv h]
      exact c4 v hv
  | geometric =>
    simp only [CountFam.first] at hl
    have lp : (0 : ℝ) < ((l - 1 : ℕ) : ℝ) := by
      have : 0 < l - 1 := by omega
      exact_mod_cast this
    have lu : ((l - 1 : ℕ) : ℝ) < u := by
      have : l - 1 < u := by omega
      exact_mod_cast this
    obtain ⟨s₀, top, a1, a2, a3, a4, a5, a6⟩ := half_two .exponential trivial _ _ lp lu
    have one : ∀ v, CountFam.geometric.Ok v → ¬ v < 1 → countMass (geometricPmf v) l u = 0 := by
      intro v hv hn
      have : v = 1 := le_antisymm hv.2 (not_lt.1 hn)
      rw [geo_mass hv.1 hv.2 (by omega) h, this, sub_self, zero_pow (by omega), zero_pow (by omega), sub_zero]
    obtain ⟨b1, b2⟩ := geo_of_scale a1
    refine ⟨1 - Real.exp (-(1 / s₀)), top, ⟨b1, b2.le⟩, a2, a3, by simp only [CountFam.pmf]; rw [geo_wait (by omega) h a1, a4],
      fun v hv hne => ?_, fun p hp ht => ?_⟩
    · simp only [CountFam.pmf]
      by_cases hv1 : v < 1
      · obtain ⟨s, hs, rfl⟩ := geo_scale hv.1 hv1
        rw [geo_wait (by omega) h hs]
        exact a5 s hs fun e => hne (by rw [e])
      · rw [one v hv hv1]
        exact a2
    · obtain ⟨s₁, s₂, c1, c2, c3, c4, -⟩ := a6 p hp ht
      have c5 : 0 < s₂ := a1.trans c3
      obtain ⟨d1, d2⟩ := geo_of_scale c1
      obtain ⟨d3, d4⟩ := geo_of_scale c5
      have e1 := geo_scale_lt c1 c2
      have e2 := geo_scale_lt a1 c3
      refine ⟨1 - Real.exp (-(1 / s₁)), 1 - Real.exp (-(1 / s₂)), ⟨d1, d2.le⟩, ⟨d3, d4.le⟩, ?_, ?_, fun v hv => ?_,
        geo_entropy d3 (e2.trans e1) d2.le⟩
      · exact one_div_lt_one_div_of_lt b1 e1
      · exact one_div_lt_one_div_of_lt d3 e2
      · simp only [CountFam.pmf]
        by_cases hv1 : v < 1
        · obtain ⟨s, hs, rfl⟩ := geo_scale hv.1 hv1
          rw [geo_wait (by omega) h hs, c4 s hs]
          have inj : ∀ s', 0 < s' → (1 - Real.exp (-(1 / s)) = 1 - Real.exp (-(1 / s')) ↔ s = s') := by
            intro s' hs'
            rw [sub_right_inj, Real.exp_eq_exp, neg_inj, one_div, one_div, inv_inj]
          rw [inj s₁ c1, inj s₂ c5]
        · rw [one v hv hv1]
          constructor
          · intro e; linarith
          · rintro (rfl | rfl) <;> exact absurd ‹_› hv1

/-- **C118**: the largest mass of a Geometric distribution on `l, ..., u`. -/
theorem geometric_reach (l u : ℕ) (p : ℝ) (hl : 2 ≤ l) (h : l ≤ u) (hp : 0 < p) :
    (∃ v, CountFam.geometric.Ok v ∧ countMass (geometricPmf v) l u = p) ↔
      p ≤ (((l - 1 : ℕ) : ℝ) / u) ^ (((l - 1 : ℕ) : ℝ) / (u - ((l - 1 : ℕ) : ℝ))) * (1 - ((l - 1 : ℕ) : ℝ) / u) := by
  have lp : (0 : ℝ) < ((l - 1 : ℕ) : ℝ) := by
    have : 0 < l - 1 := by omega
    exact_mod_cast this
  have lu : ((l - 1 : ℕ) : ℝ) < u := by
    have : l - 1 < u := by omega
    exact_mod_cast this
  rw [← exponential_reach _ _ p lp lu hp]
  constructor
  · rintro ⟨v, hv, e⟩
    by_cases hv1 : v < 1
    · obtain ⟨s, hs, rfl⟩ := geo_scale hv.1 hv1
      rw [geo_wait hl h hs] at e
      exact ⟨1 / s, by positivity, e⟩
    · have : v = 1 := le_antisymm hv.2 (not_lt.1 hv1)
      rw [geo_mass hv.1 hv.2 (by omega) h, this, sub_self, zero_pow (by omega), zero_pow (by omega), sub_zero] at e
      linarith
  · rintro ⟨lam, hlam, e⟩
    have hs : 0 < 1 / lam := by positivity
    obtain ⟨b1, b2⟩ := geo_of_scale hs
    refine ⟨_, ⟨b1, b2.le⟩, ?_⟩
    rw [geo_wait hl h hs]
    simp only [HalfFam.pdf, one_div_one_div]
    exact e

/-- no Geometric distribution gives 2, 3, 4 more than 48% -/
example (v : ℝ) (hv : CountFam.geometric.Ok v) : countMass (geometricPmf v) 2 4 < 48 / 100 := by
  by_contra hc
  have h := (geometric_reach 2 4 (countMass (geometricPmf v) 2 4) le_rfl (by norm_num)
    (by linarith [not_lt.1 hc])).1 ⟨v, hv, rfl⟩
  have e : ((1 : ℝ) / 4) ^ ((1 : ℝ) / 3) < 64 / 100 := by
    have h1 : (((1 : ℝ) / 4) ^ ((1 : ℝ) / 3)) ^ 3 = 1 / 4 := by
      rw [← Real.rpow_natCast, ← Real.rpow_mul (by norm_num)]; norm_num
    by_contra hc'
    have := pow_le_pow_left₀ (by norm_num) (not_lt.1 hc') 3
    rw [h1] at this
    norm_num at this
  norm_num at h e
  linarith [not_lt.1 hc]

/-- of all Poisson distributions the one with mean √6 gives 2, 3 the largest mass -/
example (m : ℝ) (hm : 0 < m) (hne : m ≠ √6) : countMass (poissonPmf m) 2 3 < countMass (poissonPmf √6) 2 3 := by
  have e : (((3 : ℕ).factorial : ℝ) / ((2 - 1 : ℕ).factorial : ℝ)) ^ (((3 + 1 - 2 : ℕ) : ℝ)⁻¹) = √6 := by
    rw [Real.sqrt_eq_rpow]; norm_num [Nat.factorial]
  have := poisson_peak 2 3 (by norm_num) (by norm_num) m hm (by rw [e]; exact hne)
  rwa [e] at this

/-! ### maxent -/

private theorem count_candidate (F : CountFam) (o : Obj) (ho : construct F.family (fun _ => none) = .ok o) (v : ℝ) (o1 o2 : Obj)
    (h : applyCandidate F.family o.names (getFixedParams o).1 (getFixedParams o).2 [v] o1 = .ok o2) :
    law F.family o2 = [some v] := by
  cases F <;>
    simp [construct, CountFam.family, parametrize, simpleParam, simpleFam, allNotNone, blank, Obj.setAll, Obj.set,
      Except.ok_bind', Except.pure_eq] at ho <;>
    subst ho <;>
    simp [applyCandidate, getFixedParams, splitStep, getParams, getParamsFrom, Function.update, Except.map, Except.ok_bind',
      CountFam.family, parametrize, kwCall, List.lookup, simpleParam, simpleFam, simpleUpdate, allNotNone, Obj.setAll, Obj.set,
      Except.pure_eq, List.zipIdx] at h <;>
    subst h <;>
    simp [law, lawAttrs, CountFam.family, Obj.setAll, Obj.set, Function.update]

/-- **C118**: maxent.  Let the runs completed before the first failure end at admissible values and report their entropies.
If one of them gives the counts from `l` to `u` the mass up to 1e-4, the distribution returned does so and has the largest mean
of all those; otherwise it is the one of the first run. -/
theorem maxent_count (F : CountFam) (o : Obj) (ho : construct F.family (fun _ => none) = .ok o)
    (b : ℝ → Base) (hb : ∀ v, F.Ok v → (b v).law = ofNatPmf (F.pmf v))
    (l u : ℕ) (p : ℝ) (hlu : l ≤ u)
    (err : List ℝ → Option ℝ) (herr : ∀ v, F.Ok v → err [v] = some |probBound (b v) l u p none|)
    (done : List Opt) (rest : List (Except Err Opt)) (hrest : ∀ r, rest.head? = some r → ∃ e, r = .error e)
    (hdone : ∀ r ∈ done, ∃ v, F.Ok v ∧ r.x = [v] ∧ r.value = some ((-entropyPmf (F.pmf v) : ℝ) : EReal))
    (o1 o2 : Obj) (r : Opt)
    (h : optimizeMaxEnt F.family o.names (getFixedParams o).1 (getFixedParams o).2 err (done.map .ok ++ rest) o1 =
      .ok (r, o2)) :
    ∃ v, F.Ok v ∧ r.x = [v] ∧ law F.family o2 = [some v] ∧ r ∈ done ∧
      ((∃ r' ∈ done, ∃ v', r'.x = [v'] ∧ |countMass (F.pmf v') l u - p| < 1 / 10000) →
        |countMass (F.pmf v) l u - p| < 1 / 10000 ∧
        ∀ r' ∈ done, ∀ v', r'.x = [v'] → |countMass (F.pmf v') l u - p| < 1 / 10000 → F.mean v' ≤ F.mean v) ∧
      ((∀ r' ∈ done, ∀ v', r'.x = [v'] → 1 / 10000 ≤ |countMass (F.pmf v') l u - p|) → done.head? = some r) := by
  have herr' : ∀ v, F.Ok v → err [v] = some |countMass (F.pmf v) l u - p| := by
    intro v hv
    rw [herr v hv, constraint_is_mass _ _ _ _ (by exact_mod_cast hlu) (fun _ => ⟨l, by simp⟩), hb v hv]
    rfl
  have hfe : ∀ r' ∈ done, ∀ v', r'.x = [v'] → F.Ok v' ∧
      (|countMass (F.pmf v') l u - p| < 1 / 10000 → Feasible err r' ((-entropyPmf (F.pmf v') : ℝ) : EReal)) := by
    intro r' hr' v' hx
    obtain ⟨v, hv, hx', hval⟩ := hdone r' hr'
    rw [hx] at hx'
    simp only [List.cons.injEq, and_true] at hx'
    subst hx'
    exact ⟨hv, fun hlt => ⟨⟨_, by rw [hx]; exact herr' _ hv, hlt⟩, hval⟩⟩
  have hef : ∀ r' ∈ done, ∀ v', r'.x = [v'] → ∀ w, Feasible err r' w →
      |countMass (F.pmf v') l u - p| < 1 / 10000 ∧ w = ((-entropyPmf (F.pmf v') : ℝ) : EReal) := by
    intro r' hr' v' hx w ⟨⟨e, he, hlt⟩, hval⟩
    obtain ⟨v, hv, hx', hval'⟩ := hdone r' hr'
    rw [hx] at hx'
    simp only [List.cons.injEq, and_true] at hx'
    subst hx'
    rw [hx, herr' _ hv] at he
    simp only [Option.some.injEq] at he
    subst he
    rw [hval'] at hval
    simp only [Option.some.injEq] at hval
    exact ⟨hlt, hval.symm⟩
  obtain ⟨h1, h2⟩ := maxent_leaves_selected _ _ _ _ _ _ _ _ _ h
  by_cases hp : ∃ r' ∈ done, ∃ v', r'.x = [v'] ∧ |countMass (F.pmf v') l u - p| < 1 / 10000
  · obtain ⟨r0, hr0, v0, hx0, hlt0⟩ := hp
    obtain ⟨i, r', w, e1, e2, e3, e4, -⟩ :=
      maxent_selects err done rest hrest r0 hr0 _ ((hfe r0 hr0 v0 hx0).2 hlt0) (EReal.coe_ne_top _)
    rw [h1] at e1
    simp only [Except.ok.injEq] at e1
    subst e1
    have hrd : r ∈ done := List.mem_of_getElem? e2
    obtain ⟨v, hv, hx, hval⟩ := hdone r hrd
    obtain ⟨hlt, rfl⟩ := hef r hrd v hx w e3
    refine ⟨v, hv, hx, count_candidate F o ho v o1 o2 (by rw [← hx]; exact h2), hrd,
      fun _ => ⟨hlt, fun r' hr' v' hx' hlt' => ?_⟩, fun hno => absurd hlt (not_lt.2 (hno r hrd v hx))⟩
    obtain ⟨hv', hf'⟩ := hfe r' hr' v' hx'
    have := e4 r' hr' _ (hf' hlt')
    rw [EReal.coe_le_coe_iff, neg_le_neg_iff] at this
    by_contra hc
    exact absurd (centropy hv hv' (not_le.1 hc)) (not_lt.2 this)
  · push Not at hp
    have hf := maxent_fallback err done rest hrest (fun r' hr' w hw => by
      obtain ⟨v, hv, hx, -⟩ := hdone r' hr'
      exact absurd (hef r' hr' v hx w hw).1 (not_lt.2 (hp r' hr' v hx)))
    rw [h1] at hf
    cases done with
    | nil => simp at hf
    | cons r' done =>
      simp only [Except.ok.injEq] at hf
      subst hf
      obtain ⟨v, hv, hx, hval⟩ := hdone r (by simp)
      refine ⟨v, hv, hx, count_candidate F o ho v o1 o2 (by rw [← hx]; exact h2), by simp, ?_, fun _ => rfl⟩
      rintro ⟨r'', hr'', v'', hx'', hlt⟩
      exact absurd hlt (not_lt.2 (hp r'' hr'' v'' hx''))

/-- **C118**: maxent asked for a mass that two distributions of the family give.  If the completed runs that pass the check give
the interval exactly the mass, the distribution returned is one of the two, and it is the one with the larger mean (the answer)
if and only if some completed run ended there. -/
theorem maxent_count_answer (F : CountFam) (o : Obj) (ho : construct F.family (fun _ => none) = .ok o)
    (b : ℝ → Base) (hb : ∀ v, F.Ok v → (b v).law = ofNatPmf (F.pmf v))
    (l u : ℕ) (p : ℝ) (hlu : l ≤ u) (v₁ v₂ : ℝ) (hv₂ : F.Ok v₂) (hm : F.mean v₁ < F.mean v₂)
    (hsol : ∀ v, F.Ok v → (countMass (F.pmf v) l u = p ↔ v = v₁ ∨ v = v₂))
    (err : List ℝ → Option ℝ) (herr : ∀ v, F.Ok v → err [v] = some |probBound (b v) l u p none|)
    (done : List Opt) (rest : List (Except Err Opt)) (hrest : ∀ r, rest.head? = some r → ∃ e, r = .error e)
    (hdone : ∀ r ∈ done, ∃ v, F.Ok v ∧ r.x = [v] ∧ r.value = some ((-entropyPmf (F.pmf v) : ℝ) : EReal))
    (hexact : ∀ r' ∈ done, ∀ v', r'.x = [v'] → |countMass (F.pmf v') l u - p| < 1 / 10000 → countMass (F.pmf v') l u = p)
    (hsome : ∃ r' ∈ done, ∃ v', r'.x = [v'] ∧ |countMass (F.pmf v') l u - p| < 1 / 10000)
    (o1 o2 : Obj) (r : Opt)
    (h : optimizeMaxEnt F.family o.names (getFixedParams o).1 (getFixedParams o).2 err (done.map .ok ++ rest) o1 =
      .ok (r, o2)) :
    ∃ v, law F.family o2 = [some v] ∧ (v = v₁ ∨ v = v₂) ∧ (v = v₂ ↔ ∃ r' ∈ done, r'.x = [v₂]) := by
  obtain ⟨v, hv, hx, hl, hrd, h1, -⟩ := maxent_count F o ho b hb l u p hlu err herr done rest hrest hdone o1 o2 r h
  obtain ⟨hlt, hmax⟩ := h1 hsome
  have hs := (hsol _ hv).1 (hexact r hrd v hx hlt)
  refine ⟨v, hl, hs, fun e => ⟨r, hrd, by rw [hx, e]⟩, ?_⟩
  rintro ⟨r', hr', hx'⟩
  have := hmax r' hr' v₂ hx' (by rw [(hsol _ hv₂).2 (.inr rfl), sub_self, abs_zero]; norm_num)
  rcases hs with e | e
  · rw [e] at this; linarith
  · exact e

/-- **C118**: maxent asked for a mass that the family cannot give (by 1e-4 or more): the distribution of the first completed
run is returned, whatever its entropy; it misses the mass. -/
theorem maxent_count_unmet (F : CountFam) (o : Obj) (ho : construct F.family (fun _ => none) = .ok o)
    (b : ℝ → Base) (hb : ∀ v, F.Ok v → (b v).law = ofNatPmf (F.pmf v))
    (l u : ℕ) (p : ℝ) (hlu : l ≤ u) (hun : ∀ v, F.Ok v → countMass (F.pmf v) l u + 1 / 10000 ≤ p)
    (err : List ℝ → Option ℝ) (herr : ∀ v, F.Ok v → err [v] = some |probBound (b v) l u p none|)
    (done : List Opt) (rest : List (Except Err Opt)) (hrest : ∀ r, rest.head? = some r → ∃ e, r = .error e)
    (hdone : ∀ r ∈ done, ∃ v, F.Ok v ∧ r.x = [v] ∧ r.value = some ((-entropyPmf (F.pmf v) : ℝ) : EReal))
    (o1 o2 : Obj) (r : Opt)
    (h : optimizeMaxEnt F.family o.names (getFixedParams o).1 (getFixedParams o).2 err (done.map .ok ++ rest) o1 =
      .ok (r, o2)) :
    ∃ v, law F.family o2 = [some v] ∧ (done.head?.map fun r => r.x) = some [v] ∧
      countMass (F.pmf v) l u ≤ p - 1 / 10000 := by
  obtain ⟨v, hv, hx, hl, hrd, -, h2⟩ := maxent_count F o ho b hb l u p hlu err herr done rest hrest hdone o1 o2 r h
  refine ⟨v, hl, ?_, by linarith [hun _ hv]⟩
  rw [h2 fun r' hr' v' hx' => ?_]
  · simp [hx]
  · obtain ⟨w, hw, hx'', -⟩ := hdone r' hr'
    rw [hx'] at hx''
    simp only [List.cons.injEq, and_true] at hx''
    subst hx''
    have := hun _ hw
    rw [abs_of_neg (by linarith)]
    linarith

/-! The hypotheses are met. -/

private theorem ofNatPmf_ae {f : ℕ → ℝ} {P : ℝ → Prop} (hP : MeasurableSet {x | P x}) (h : ∀ k : ℕ, P k) :
    ∀ᵐ x ∂ofNatPmf f, P x := by
  unfold ofNatPmf ofPmf
  rw [Measure.ae_sum_iff' hP]
  intro k
  by_cases hk : k < 0
  · simp [hk]
  · refine Measure.ae_smul_measure ?_ _
    rw [ae_dirac_iff hP]
    have := h k.toNat
    rwa [show ((k.toNat : ℕ) : ℝ) = ((k : ℤ) : ℝ) by
      have : ((k.toNat : ℕ) : ℤ) = k := Int.toNat_of_nonneg (not_lt.1 hk)
      exact_mod_cast congrArg (fun z : ℤ => (z : ℝ)) this] at this

/-- the distributions of a family as discrete bases -/
private noncomputable def countBase (F : CountFam) (v : ℝ) : Base :=
  haveI := Classical.dec (F.Ok v)
  if hv : F.Ok v then
    haveI : IsProbabilityMeasure (ofNatPmf (F.pmf v)) := by
      cases F with
      | poisson => exact (Law.poisson hv).1
      | geometric => exact (Law.geometric hv.1 hv.2).1
    discreteBase (ofNatPmf (F.pmf v)) 0 ⊤
      (ofNatPmf_ae (by
        have : {x : ℝ | (0 : EReal) ≤ x ∧ (x : EReal) ≤ ⊤} = Ici 0 := by ext x; simp
        rw [this]; exact measurableSet_Ici) fun k => by simp)
      (ofNatPmf_ae (by
        have : {x : ℝ | ∃ k : ℤ, x = k} = range (fun k : ℤ => (k : ℝ)) := by ext x; simp [eq_comm]
        rw [this]; exact (countable_range _).measurableSet) fun k => ⟨k, by simp⟩)
  else unif 0 1 (by norm_num)

private theorem countBase_law (F : CountFam) (v : ℝ) (hv : F.Ok v) : (countBase F v).law = ofNatPmf (F.pmf v) := by
  unfold countBase
  rw [dif_pos hv]
  rfl

private theorem count_made (F : CountFam) : ∃ o, construct F.family (fun _ => none) = .ok o ∧
    ∀ v, ∃ o2, applyCandidate F.family o.names (getFixedParams o).1 (getFixedParams o).2 [v] o = .ok o2 := by
  obtain ⟨o, ho⟩ : ∃ o, construct F.family (fun _ => none) = .ok o := by
    cases F <;> exact ⟨_, rfl⟩
  refine ⟨o, ho, fun v => ?_⟩
  cases F <;>
    simp [construct, CountFam.family, parametrize, simpleParam, simpleFam, allNotNone, blank, Obj.setAll, Obj.set,
      Except.ok_bind', Except.pure_eq] at ho <;>
    subst ho <;>
    simp [applyCandidate, getFixedParams, splitStep, getParams, getParamsFrom, Function.update, Except.map, Except.ok_bind',
      CountFam.family, parametrize, kwCall, List.lookup, simpleParam, simpleFam, simpleUpdate, allNotNone, Obj.setAll, Obj.set,
      Except.pure_eq, List.zipIdx]

/-- `maxent(Geometric(), 2, 4, 0.9)`: the runs end at 1/2 and 1/4; the first is returned -/
example : ∃ (o o2 : Obj) (r : Opt) (err : List ℝ → Option ℝ) (done : List Opt),
    construct CountFam.geometric.family (fun _ => none) = .ok o ∧
    (∀ v, CountFam.geometric.Ok v → err [v] = some |probBound (countBase .geometric v) (2 : ℕ) (4 : ℕ) (9 / 10) none|) ∧
    (∀ v, CountFam.geometric.Ok v → countMass (CountFam.geometric.pmf v) 2 4 + 1 / 10000 ≤ 9 / 10) ∧
    (∀ r ∈ done, ∃ v, CountFam.geometric.Ok v ∧ r.x = [v] ∧
      r.value = some ((-entropyPmf (CountFam.geometric.pmf v) : ℝ) : EReal)) ∧
    done.map (fun r => r.x) = [[1 / 2], [1 / 4]] ∧
    optimizeMaxEnt CountFam.geometric.family o.names (getFixedParams o).1 (getFixedParams o).2 err
      (done.map .ok ++ [.error .valueError]) o = .ok (r, o2) := by
  have hun : ∀ v, CountFam.geometric.Ok v → countMass (CountFam.geometric.pmf v) 2 4 + 1 / 10000 ≤ 9 / 10 := by
    intro v hv
    by_contra hc
    have h := (geometric_reach 2 4 (countMass (geometricPmf v) 2 4) le_rfl (by norm_num)
      (by simp only [CountFam.pmf] at hc; linarith [not_le.1 hc])).1 ⟨v, hv, rfl⟩
    have e : ((1 : ℝ) / 4) ^ ((1 : ℝ) / 3) ≤ 1 := Real.rpow_le_one (by norm_num) (by norm_num) (by norm_num)
    simp only [CountFam.pmf] at hc
    norm_num at h e hc
    linarith
  set val : ℝ → Option EReal := fun v => some ((-entropyPmf (CountFam.geometric.pmf v) : ℝ) : EReal) with hval
  set err : List ℝ → Option ℝ := fun x => match x with
    | [v] => some |probBound (countBase .geometric v) (2 : ℕ) (4 : ℕ) (9 / 10) none|
    | _ => none with herr
  obtain ⟨o, ho, hap⟩ := count_made .geometric
  have ok1 : CountFam.geometric.Ok (1 / 2) := ⟨by norm_num, by norm_num⟩
  have ok2 : CountFam.geometric.Ok (1 / 4) := ⟨by norm_num, by norm_num⟩
  have hsel := maxent_fallback err [⟨[1 / 2], val (1 / 2)⟩, ⟨[1 / 4], val (1 / 4)⟩] [.error .valueError] (by simp) (by
    intro r hr w hw
    have key : ∀ v, CountFam.geometric.Ok v → ∀ e, err [v] = some e → ¬ e < 1 / 10000 := by
      intro v hv e he
      simp only [herr, Option.some.injEq] at he
      rw [← he, constraint_is_mass _ _ _ _ (by norm_num) (fun _ => ⟨2, by norm_num⟩), countBase_law _ v hv]
      change ¬ |countMass _ 2 4 - _| < _
      have := hun _ hv
      rw [abs_of_neg (by linarith)]
      linarith
    obtain ⟨⟨e, he, hlt⟩, -⟩ := hw
    simp only [List.mem_cons, List.not_mem_nil, or_false] at hr
    rcases hr with rfl | rfl
    · exact key _ ok1 e he hlt
    · exact key _ ok2 e he hlt)
  obtain ⟨o2, ho2⟩ := hap (1 / 2)
  refine ⟨o, o2, ⟨[1 / 2], val (1 / 2)⟩, err, [⟨[1 / 2], val (1 / 2)⟩, ⟨[1 / 4], val (1 / 4)⟩], ho, fun v _ => rfl, hun, ?_, rfl, ?_⟩
  · intro r hr
    simp only [List.mem_cons, List.not_mem_nil, or_false] at hr
    rcases hr with rfl | rfl
    · exact ⟨_, ok1, rfl, rfl⟩
    · exact ⟨_, ok2, rfl, rfl⟩
  · unfold optimizeMaxEnt
    rw [hsel]
    simp only [Except.ok_bind']
    rw [ho2]
    rfl

/-- `maxent(Poisson(), 2, 5, mass)`: a run that ends at the smaller of the two solutions and one at the larger; the larger is
returned -/
example : ∃ (p v₁ v₂ : ℝ) (o o2 : Obj) (r : Opt) (err : List ℝ → Option ℝ) (done : List Opt),
    construct CountFam.poisson.family (fun _ => none) = .ok o ∧
    CountFam.poisson.Ok v₂ ∧ CountFam.poisson.mean v₁ < CountFam.poisson.mean v₂ ∧
    (∀ v, CountFam.poisson.Ok v → (countMass (CountFam.poisson.pmf v) 2 5 = p ↔ v = v₁ ∨ v = v₂)) ∧
    (∀ v, CountFam.poisson.Ok v → err [v] = some |probBound (countBase .poisson v) (2 : ℕ) (5 : ℕ) p none|) ∧
    (∀ r ∈ done, ∃ v, CountFam.poisson.Ok v ∧ r.x = [v] ∧
      r.value = some ((-entropyPmf (CountFam.poisson.pmf v) : ℝ) : EReal)) ∧
    (∀ r' ∈ done, ∀ v', r'.x = [v'] → |countMass (CountFam.poisson.pmf v') 2 5 - p| < 1 / 10000 →
      countMass (CountFam.poisson.pmf v') 2 5 = p) ∧
    (∃ r' ∈ done, ∃ v', r'.x = [v'] ∧ |countMass (CountFam.poisson.pmf v') 2 5 - p| < 1 / 10000) ∧
    optimizeMaxEnt CountFam.poisson.family o.names (getFixedParams o).1 (getFixedParams o).2 err
      (done.map .ok ++ [.error .valueError]) o = .ok (r, o2) ∧ r.x = [v₂] := by
  obtain ⟨v₀, top, h0, t0, -, -, -, hp⟩ := count_two .poisson 2 5 (by norm_num [CountFam.first]) (by norm_num)
  obtain ⟨v₁, v₂, a1, a2, a3, a4, a5, -⟩ := hp (top / 2) (by linarith) (by linarith)
  have m1 := (a5 v₁ a1).2 (.inl rfl)
  have m2 := (a5 v₂ a2).2 (.inr rfl)
  set p := top / 2 with hpp
  set val : ℝ → Option EReal := fun v => some ((-entropyPmf (CountFam.poisson.pmf v) : ℝ) : EReal) with hval
  set err : List ℝ → Option ℝ := fun x => match x with
    | [v] => some |probBound (countBase .poisson v) (2 : ℕ) (5 : ℕ) p none|
    | _ => none with herr
  obtain ⟨o, ho, hap⟩ := count_made .poisson
  have hdone : ∀ r ∈ ([⟨[v₁], val v₁⟩, ⟨[v₂], val v₂⟩] : List Opt), ∃ v, CountFam.poisson.Ok v ∧ r.x = [v] ∧
      r.value = some ((-entropyPmf (CountFam.poisson.pmf v) : ℝ) : EReal) := by
    intro r hr
    simp only [List.mem_cons, List.not_mem_nil, or_false] at hr
    rcases hr with rfl | rfl
    · exact ⟨_, a1, rfl, rfl⟩
    · exact ⟨_, a2, rfl, rfl⟩
  have hexact : ∀ r' ∈ ([⟨[v₁], val v₁⟩, ⟨[v₂], val v₂⟩] : List Opt), ∀ v', r'.x = [v'] →
      |countMass (CountFam.poisson.pmf v') 2 5 - p| < 1 / 10000 → countMass (CountFam.poisson.pmf v') 2 5 = p := by
    intro r hr v' hx _
    simp only [List.mem_cons, List.not_mem_nil, or_false] at hr
    rcases hr with rfl | rfl <;> simp only [List.cons.injEq, and_true] at hx <;> subst hx <;> assumption
  have hsome : ∃ r' ∈ ([⟨[v₁], val v₁⟩, ⟨[v₂], val v₂⟩] : List Opt), ∃ v', r'.x = [v'] ∧
      |countMass (CountFam.poisson.pmf v') 2 5 - p| < 1 / 10000 :=
    ⟨_, List.mem_cons_self, v₁, rfl, by rw [m1, sub_self, abs_zero]; norm_num⟩
  have fe : ∀ v, CountFam.poisson.Ok v → countMass (CountFam.poisson.pmf v) 2 5 = p →
      Feasible err ⟨[v], val v⟩ ((-entropyPmf (CountFam.poisson.pmf v) : ℝ) : EReal) := by
    intro v hv hm
    refine ⟨⟨0, ?_, by norm_num⟩, rfl⟩
    simp only [herr]
    rw [constraint_is_mass _ _ _ _ (by norm_num) (fun _ => ⟨2, by norm_num⟩), countBase_law _ v hv]
    change some |countMass _ 2 5 - _| = _
    rw [hm, sub_self, abs_zero]
  obtain ⟨i, r, w, e1, e2, -, -, -⟩ := maxent_selects err [⟨[v₁], val v₁⟩, ⟨[v₂], val v₂⟩] [.error .valueError] (by simp)
    ⟨[v₁], val v₁⟩ (by simp) _ (fe v₁ a1 m1) (EReal.coe_ne_top _)
  have hr := List.mem_of_getElem? e2
  obtain ⟨o2, ho2⟩ : ∃ o2, applyCandidate CountFam.poisson.family o.names (getFixedParams o).1 (getFixedParams o).2 r.x o =
      .ok o2 := by
    obtain ⟨v, -, hx, -⟩ := hdone r hr
    rw [hx]; exact hap v
  have hrun : optimizeMaxEnt CountFam.poisson.family o.names (getFixedParams o).1 (getFixedParams o).2 err
      ([⟨[v₁], val v₁⟩, ⟨[v₂], val v₂⟩].map .ok ++ [.error .valueError]) o = .ok (r, o2) := by
    unfold optimizeMaxEnt
    rw [e1]
    simp only [Except.ok_bind']
    rw [ho2]
    rfl
  refine ⟨p, v₁, v₂, o, o2, r, err, _, ho, a2, a3.trans a4, a5, fun v _ => rfl, hdone, hexact, hsome, hrun, ?_⟩
  obtain ⟨v, hv, hx, -, -, h1, -⟩ := maxent_count .poisson o ho (countBase .poisson) (countBase_law .poisson) 2 5 p (by norm_num) err
    (fun v _ => rfl) _ _ (by simp) hdone o o2 r hrun
  obtain ⟨hlt, hmax⟩ := h1 hsome
  have := hmax ⟨[v₂], val v₂⟩ (by simp) v₂ rfl (by rw [m2, sub_self, abs_zero]; norm_num)
  rcases (a5 v hv).1 (hexact r hr v hx hlt) with e | e
  · rw [e] at this
    exact absurd (a3.trans a4) (not_lt.2 this)
  · rw [hx, e]

end Verif.Props
