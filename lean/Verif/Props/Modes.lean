import Verif.Model.Modes
import Verif.Spec.Modes
import Verif.Props.ContMoments
import Verif.Props.Curves
import Mathlib.Analysis.SpecialFunctions.Integrals.Basic

set_option linter.unusedSimpArgs false

/-!
# C101: modes of truncated, censored and hurdle distributions
-/

namespace Verif.Props
open Verif MeasureTheory Verif.Spec Verif.Modifier Verif.Interval Verif.TruncatedMoments Verif.GridMoments
  Verif.ContMoments Verif.Modes

/-! ### Discrete -/

private theorem grid_mass (μ : Measure ℝ) [IsProbabilityMeasure μ] (p : ℝ → ℝ) (hp : IsPmf μ p) (lo hi : ℤ)
    (hr : hi - lo ≤ 200) :
    ((discreteXvals lo hi 200).map fun (x : ℤ) => p (x : ℝ)).sum = μ.real (Set.Icc (lo : ℝ) hi) := by
  obtain ⟨s1, s2⟩ := xvals_small lo hi 200 (by exact_mod_cast hr)
  have := sum_eq_integral μ p (fun _ => 1) hp _ lo hi s1 s2
  simpa using this

/-- the search on a grid with all the integers between its ends, when hardly any probability is outside -/
private theorem grid_mode (μ : Measure ℝ) [IsProbabilityMeasure μ] (p : ℝ → ℝ) (hp : IsPmf μ p) (lo hi : ℤ)
    (hr : hi - lo ≤ 200) (hout : μ.real (Set.Icc (lo : ℝ) hi)ᶜ ≤ 0.0002) :
    ∃ k : ℤ, findDiscreteMode (fun k : ℤ => p (k : ℝ)) (discreteXvals lo hi 200) = .ok k ∧ FirstMode μ (k : ℝ) := by
  obtain ⟨s1, s2⟩ := xvals_small lo hi 200 (by exact_mod_cast hr)
  have hin : 0.9998 ≤ μ.real (Set.Icc (lo : ℝ) hi) := by
    rw [probReal_compl_eq_one_sub measurableSet_Icc] at hout
    norm_num at hout ⊢
    linarith
  have hlh : lo ≤ hi := by
    by_contra hc
    rw [Set.Icc_eq_empty (by simpa using hc)] at hin
    norm_num at hin
  have hne : discreteXvals lo hi 200 ≠ [] := List.ne_nil_of_mem ((s2 lo).2 ⟨le_rfl, hlh⟩)
  obtain ⟨k, hk, e, h1, h2⟩ := discrete_mode (fun k : ℤ => p (k : ℝ)) _ hne s1
  refine ⟨k, e, ?_⟩
  have hbig : 0.0002 < μ.real {(k : ℝ)} := by
    have hs := grid_mass μ p hp lo hi hr
    have hle : ((discreteXvals lo hi 200).map fun (x : ℤ) => p (x : ℝ)).sum ≤
        ((discreteXvals lo hi 200).map fun (x : ℤ) => p (x : ℝ)).length • p k := by
      apply List.sum_le_card_nsmul
      intro x hx
      obtain ⟨j, hj, rfl⟩ := List.mem_map.1 hx
      exact h1 j hj
    have hlen : (discreteXvals lo hi 200).length ≤ 201 := by
      unfold discreteXvals
      simp only [show hi - lo ≤ ((200 : ℕ) : ℤ) by exact_mod_cast hr, if_true, List.length_map, List.length_range]
      omega
    rw [List.length_map, nsmul_eq_mul, hs] at hle
    have h0 : 0 ≤ p k := by rw [hp.2]; exact measureReal_nonneg
    have : ((discreteXvals lo hi 200).length : ℝ) * p k ≤ 201 * p k :=
      mul_le_mul_of_nonneg_right (by exact_mod_cast hlen) h0
    rw [← hp.2]
    norm_num at hin ⊢
    linarith
  have hother : ∀ y : ℝ, (∃ j ∈ discreteXvals lo hi 200, y = j) ∨ μ.real {y} < μ.real {(k : ℝ)} := by
    intro y
    by_cases hy : y ∈ Set.Icc (lo : ℝ) hi
    · by_cases hj : ∃ j : ℤ, y = j
      · obtain ⟨j, rfl⟩ := hj
        exact .inl ⟨j, (s2 j).2 ⟨by exact_mod_cast hy.1, by exact_mod_cast hy.2⟩, rfl⟩
      · right
        have hz : μ {y} = 0 := by
          refine measure_mono_null ?_ (ae_iff.1 hp.1)
          rintro x rfl
          exact hj
        rw [measureReal_def, hz, ENNReal.toReal_zero]
        linarith
    · right
      have : μ.real {y} ≤ μ.real (Set.Icc (lo : ℝ) hi)ᶜ := measureReal_mono (by simpa using hy)
      linarith
  constructor
  · intro y
    rcases hother y with ⟨j, hj, rfl⟩ | h
    · rw [← hp.2, ← hp.2]; exact h1 j hj
    · exact h.le
  · intro y hy
    rcases hother y with ⟨j, hj, rfl⟩ | h
    · rw [← hp.2, ← hp.2]; exact h2 j hj (by exact_mod_cast hy)
    · exact h

/-- C101: the mode of a truncated discrete distribution is the smallest of its most probable values, whenever the grid
behind it has room for all the integers between its ends, also if the support is infinite. -/
theorem truncated_mode (b : Base) (hd : b.discrete = true) (l u : EReal) (hl : Whole l)
    (hm : 0 < b.law.real (between l u)) (hlo : Whole (max b.lo l)) (hhi : Whole (min b.hi u)) :
    ∃ lo hi : ℤ, truncXvals b l u .full = .ok (discreteXvals lo hi 200) ∧
      (hi - lo ≤ 200 → Gives (truncMode b l u) fun k => FirstMode (truncLaw b.law l u) k) := by
  obtain ⟨lo, hi, hg, -, hout⟩ := truncated_mean_partial b hd l u hl hm hlo hhi
  have := truncated_proper b l u hm
  refine ⟨lo, hi, hg, fun hr => ?_⟩
  obtain ⟨k, e, hk⟩ := grid_mode (truncLaw b.law l u) _ (truncated_pmf b hd l u hl hm) lo hi hr hout
  refine ⟨k, ?_, hk⟩
  unfold truncMode
  rw [hg, Except.ok_bind', e]

/-- in particular if the support is finite and has at most 201 integers -/
theorem truncated_mode_finite (b : Base) (hd : b.discrete = true) (l u : EReal) (hl : Whole l)
    (hm : 0 < b.law.real (between l u)) (n m : ℤ) (hn : max b.lo l = ((n : ℝ) : EReal))
    (hmm : min b.hi u = ((m : ℝ) : EReal)) (hr : m - n ≤ 200) :
    Gives (truncMode b l u) fun k => FirstMode (truncLaw b.law l u) k := by
  have := truncated_proper b l u hm
  have hg : truncXvals b l u .full = .ok (discreteXvals n m 200) := by
    have e : truncXvals b l u .full =
        gridXvals (truncSupport b l u).1 (truncSupport b l u).2 (truncPpf b l u) .full := rfl
    rw [e]
    exact full_grid _ _ _ n m hn hmm
  have hout : (truncLaw b.law l u).real (Set.Icc (n : ℝ) m)ᶜ ≤ 0.0002 := by
    have hz : (truncLaw b.law l u) (Set.Icc (n : ℝ) m)ᶜ = 0 := by
      refine measure_mono_null ?_ (ae_iff.1 (truncBase b hd l u hl hm).in_support)
      intro y hy hc
      have h1 : max b.lo l ≤ (y : EReal) := hc.1
      have h2 : (y : EReal) ≤ min b.hi u := hc.2
      rw [hn, EReal.coe_le_coe_iff] at h1
      rw [hmm, EReal.coe_le_coe_iff] at h2
      exact hy ⟨h1, h2⟩
    rw [measureReal_def, hz]; norm_num
  obtain ⟨k, e, hk⟩ := grid_mode (truncLaw b.law l u) _ (truncated_pmf b hd l u hl hm) n m hr hout
  refine ⟨k, ?_, hk⟩
  unfold truncMode
  rw [hg, Except.ok_bind', e]

/-- a censored discrete distribution with whole bounds meets the contract of a base distribution -/
noncomputable def censBase (b : Base) (hd : b.discrete = true) (l u : EReal) (hp : Proper b l u)
    (hl : Whole (censBounds b l u).1) (hu : Whole (censBounds b l u).2) : Base where
  law := censLaw b.law l u
  prob := Measure.isProbabilityMeasure_map (clip_meas l u).aemeasurable
  discrete := true
  lo := (censBounds b l u).1
  hi := (censBounds b l u).2
  pdf := censPdf b (censBounds b l u).1 (censBounds b l u).2
  ppf := censPpf b (censBounds b l u).1 (censBounds b l u).2
  pdf_nonneg := fun x => by rw [censored_mass b hd l u hp hu]; exact measureReal_nonneg
  in_support := by
    rw [b.censLaw_cut hp.le]
    unfold censLaw
    rw [ae_map_iff (clip_meas _ _).aemeasurable (meas_between (censBounds b l u).1 (censBounds b l u).2)]
    refine Filter.Eventually.of_forall fun y => ?_
    have h1 : (censBounds b l u).1 ≠ ⊤ := ne_top_of_lt hp
    have h2 : (censBounds b l u).2 ≠ ⊥ := ne_bot_of_gt hp
    rw [clip_coe h1 h2]
    exact ⟨le_max_left _ _, max_le hp.le (min_le_left _ _)⟩
  discrete_law := fun _ => by
    refine ⟨?_, censored_mass b hd l u hp hu⟩
    rw [b.censLaw_cut hp.le]
    unfold censLaw
    rw [ae_map_iff (clip_meas _ _).aemeasurable]
    · filter_upwards [(b.discrete_law hd).1] with y ⟨k, hk⟩
      have hval : ∀ e : EReal, Whole e → ∃ k : ℤ, e.toReal = k := by
        rintro e (rfl | rfl | ⟨n, rfl⟩)
        · exact ⟨0, by simp⟩
        · exact ⟨0, by simp⟩
        · exact ⟨n, by simp⟩
      rcases le_total (y : EReal) (censBounds b l u).1 with h | h
      · rw [clip_low hp.le h]; exact hval _ hl
      · rcases le_total (y : EReal) (censBounds b l u).2 with h' | h'
        · rw [clip_mid h h']; exact ⟨k, hk⟩
        · rw [clip_up hp.le h']; exact hval _ hu
    · have : {x : ℝ | ∃ k : ℤ, x = k} = Set.range ((↑) : ℤ → ℝ) := by
        ext x; simp [eq_comm]
      rw [this]; exact (Set.countable_range _).measurableSet
  continuous_law := by simp
  ppf_inverse := fun q h0 h1 x =>
    (censored_ppf b l u hp.le (ne_top_of_lt hp) (ne_bot_of_gt hp) q h0 h1).1 x

/-- the mode of a discrete distribution found on its full grid -/
private theorem base_mode (b : Base) (hd : b.discrete = true) (hlo : Whole b.lo) (hhi : Whole b.hi) :
    ∃ lo hi : ℤ, xvalsDiscrete b .full (some 200) = .ok (discreteXvals lo hi 200) ∧
      (hi - lo ≤ 200 → Gives (findDiscreteMode (fun k : ℤ => b.pdf (k : ℝ)) (discreteXvals lo hi 200))
        fun k => FirstMode b.law k) := by
  obtain ⟨lf, uf, lr, ur, e1, -, q1, q2, h5, h6⟩ := xvals_endpoints b hd hlo hhi 200
  refine ⟨lf, uf, e1, fun hr => ?_⟩
  refine grid_mode b.law b.pdf (b.discrete_law hd) lf uf hr ?_
  have a1 : b.law.real (Set.Iio (lf : ℝ)) ≤ 0.0001 := by
    rcases h5 with h5 | ⟨-, rfl⟩
    · have hz : b.law (Set.Iio (lf : ℝ)) = 0 := by
        refine measure_mono_null ?_ (ae_iff.1 b.in_support)
        intro y hy hc
        have h3 : b.lo ≤ (y : EReal) := hc.1
        rw [← h5, EReal.coe_le_coe_iff] at h3
        exact absurd hy (not_lt.2 h3)
      rw [measureReal_def, hz]; norm_num
    · apply real_Iio_le
      intro x hx
      by_contra hc
      push Not at hc
      have := (q1 x).2 hc.le
      rw [EReal.coe_le_coe_iff] at this
      exact absurd hx (not_lt.2 this)
  have a2 : b.law.real (Set.Ioi (uf : ℝ)) ≤ 0.0001 := by
    rcases h6 with h6 | ⟨-, rfl⟩
    · have hz : b.law (Set.Ioi (uf : ℝ)) = 0 := by
        refine measure_mono_null ?_ (ae_iff.1 b.in_support)
        intro y hy hc
        have h3 : (y : EReal) ≤ b.hi := hc.2
        rw [← h6, EReal.coe_le_coe_iff] at h3
        exact absurd hy (not_lt.2 h3)
      rw [measureReal_def, hz]; norm_num
    · rw [(compl_tail _ _).1]
      have := (q2 uf).1 le_rfl
      norm_num at this ⊢
      linarith
  have hsub : (Set.Icc (lf : ℝ) uf)ᶜ ⊆ Set.Iio (lf : ℝ) ∪ Set.Ioi (uf : ℝ) := by
    intro y hy
    by_contra hc
    simp only [Set.mem_union, Set.mem_Iio, Set.mem_Ioi, not_or, not_lt] at hc
    exact hy ⟨hc.1, hc.2⟩
  exact (measureReal_mono hsub).trans ((measureReal_union_le _ _).trans (by norm_num at a1 a2 ⊢; linarith))

private theorem gridXvals_base (b : Base) :
    gridXvals b.lo b.hi (fun q => some (b.ppf q)) .full = xvalsDiscrete b .full (some 200) := by
  unfold gridXvals xvalsDiscrete finiteEndpoints
  simp only [Except.ok_bind', Option.getD_some]
  by_cases c1 : b.lo = ⊤ ∨ b.lo = ⊥ <;> by_cases c2 : b.hi = ⊤ ∨ b.hi = ⊥ <;>
    simp only [c1, c2, if_true, if_false, pyIntOpt]

/-- C101: the mode of a censored discrete distribution with whole bounds is the smallest of its most probable values,
the atoms at the bounds included, whenever the grid has room for all the integers between its ends. -/
theorem censored_mode (b : Base) (hd : b.discrete = true) (l u : EReal) (hp : Proper b l u)
    (hl : Whole (censBounds b l u).1) (hu : Whole (censBounds b l u).2) :
    ∃ lo hi : ℤ, censXvals b l u = .ok (discreteXvals lo hi 200) ∧
      (hi - lo ≤ 200 → Gives (censMode b l u) fun k => FirstMode (censLaw b.law l u) k) := by
  obtain ⟨lo, hi, hg, h⟩ := base_mode (censBase b hd l u hp hl hu) rfl hl hu
  have e : censXvals b l u = .ok (discreteXvals lo hi 200) := by
    rw [← hg, ← gridXvals_base]; rfl
  refine ⟨lo, hi, e, fun hr => ?_⟩
  obtain ⟨k, hk, hm⟩ := h hr
  refine ⟨k, ?_, hm⟩
  unfold censMode
  rw [e, Except.ok_bind']
  exact hk

/-- C101: the mode of a hurdle distribution over a discrete base whose support contains zero is the smallest of its
most probable values, if the grid has room for all the integers between its ends. -/
theorem hurdle_mode_partial (b : Base) (hd : b.discrete = true) (hb : HurdleBase b) (psi : ℝ) (h0 : 0 < psi)
    (h1 : psi ≤ 1) (n m : ℤ) (hn : b.lo = ((n : ℝ) : EReal)) (hz : n ≤ 0) (hzm : 0 ≤ m) (hr : m - n ≤ 200)
    (hm : b.hi = ((m : ℝ) : EReal) ∨
      b.hi = ⊤ ∧ hurdlePpf b psi 0.9999 = some ((m : ℝ) : EReal) ∧
        ((0.9999 : ℝ) ≠ 1 - psi ∨ 0 < b.cdf ((0 : ℝ) : EReal))) :
    Gives (hurdleMode b psi) fun k => FirstMode (hurdleLaw b.law psi) k := by
  have := hurdle_prob b hb psi h0.le h1
  have hp := hurdle_pmf b hd hb psi h0.le h1
  have hnr : (n : ℝ) ≤ 0 := by exact_mod_cast hz
  have hmr : (0 : ℝ) ≤ m := by exact_mod_cast hzm
  have key : hurdleXvals b psi .full = .ok (discreteXvals n m 200) ∧
      (hurdleLaw b.law psi).real (Set.Ioi (m : ℝ)) ≤ 0.0002 := by
    rcases hm with hm | ⟨hinf, hq, hne⟩
    · refine ⟨full_grid _ _ _ n m hn hm, ?_⟩
      have hae : ∀ᵐ (y : ℝ) ∂(hurdleLaw b.law psi), y ≤ m := by
        apply hurdle_ae
        · exact hmr
        · filter_upwards [b.in_support] with y hy _
          rw [hm, EReal.coe_le_coe_iff] at hy
          exact hy.2
      have hz : (hurdleLaw b.law psi) (Set.Ioi (m : ℝ)) = 0 := by
        refine measure_mono_null ?_ (ae_iff.1 hae)
        intro y hy
        exact not_le.2 hy
      rw [measureReal_def, hz]; norm_num
    · refine ⟨?_, ?_⟩
      · unfold hurdleXvals gridXvals
        simp only [hn, hinf, hq, EReal.coe_ne_top, EReal.coe_ne_bot, or_self, if_false, true_or, if_true,
          Except.ok_bind', pyIntOpt, pyInt_int, Except.pure_eq]
      · obtain ⟨Q, e, hQ, -⟩ := hurdle_ppf_partial b (Or.inl hd) hb psi h0 h1 0.9999 (by norm_num) (by norm_num) hne
        rw [hq, Option.some.injEq] at e
        subst e
        have h := (hQ m).1 le_rfl
        rw [← Set.compl_Iic, probReal_compl_eq_one_sub measurableSet_Iic]
        norm_num at h ⊢
        linarith
  have hlow : (hurdleLaw b.law psi) (Set.Iio (n : ℝ)) = 0 := by
    have hae : ∀ᵐ (y : ℝ) ∂(hurdleLaw b.law psi), (n : ℝ) ≤ y := by
      apply hurdle_ae
      · exact hnr
      · filter_upwards with y hy
        linarith
    refine measure_mono_null ?_ (ae_iff.1 hae)
    intro y hy
    exact not_le.2 hy
  have hout : (hurdleLaw b.law psi).real (Set.Icc (n : ℝ) m)ᶜ ≤ 0.0002 := by
    have hsub : (Set.Icc (n : ℝ) m)ᶜ ⊆ Set.Iio (n : ℝ) ∪ Set.Ioi (m : ℝ) := by
      intro y hy
      by_contra hc
      simp only [Set.mem_union, Set.mem_Iio, Set.mem_Ioi, not_or, not_lt] at hc
      exact hy ⟨hc.1, hc.2⟩
    have a1 : (hurdleLaw b.law psi).real (Set.Iio (n : ℝ)) = 0 := by rw [measureReal_def, hlow]; rfl
    refine (measureReal_mono hsub).trans ((measureReal_union_le _ _).trans ?_)
    rw [a1, zero_add]
    exact key.2
  obtain ⟨k, e, hk⟩ := grid_mode (hurdleLaw b.law psi) _ hp n m hr hout
  refine ⟨k, ?_, hk⟩
  unfold hurdleMode
  rw [key.1, Except.ok_bind', e]

/-- C101, what fails: if zero is not in the support of the base, the value zero is never reported, however probable. -/
theorem hurdle_mode_never_zero (b : Base) (psi : ℝ) (n m : ℤ) (hn : b.lo = ((n : ℝ) : EReal)) (hz : 0 < n)
    (hm : b.hi = ((m : ℝ) : EReal)) (hnm : n ≤ m) (hcap : m - n ≤ int64Max) :
    Gives (hurdleMode b psi) fun k => 0 < k := by
  have hg : hurdleXvals b psi .full = .ok (discreteXvals n m 200) := full_grid _ _ _ n m hn hm
  have hpos : ∀ k ∈ discreteXvals n m 200, 0 < k := by
    intro k hk
    by_cases hr : m - n ≤ 200
    · have := ((xvals_small n m 200 (by exact_mod_cast hr)).2 k).1 hk
      omega
    · obtain ⟨-, hs, hh, -, -⟩ := xvals_large_partial n m 200 (by norm_num) (by push Not at hr; exact_mod_cast hr) hcap
      cases hl : discreteXvals n m 200 with
      | nil => rw [hl] at hk; simp at hk
      | cons a t =>
        rw [hl] at hk hs hh
        simp only [List.head?_cons, Option.some.injEq] at hh
        rcases List.mem_cons.1 hk with rfl | hk
        · omega
        · have := (List.pairwise_cons.1 hs).1 k hk
          omega
  have hne : discreteXvals n m 200 ≠ [] := by
    by_cases hr : m - n ≤ 200
    · exact List.ne_nil_of_mem (((xvals_small n m 200 (by exact_mod_cast hr)).2 n).2 ⟨le_rfl, hnm⟩)
    · obtain ⟨hlen, -⟩ := xvals_large_partial n m 200 (by norm_num) (by push Not at hr; exact_mod_cast hr) hcap
      intro h
      rw [h] at hlen
      simp at hlen
  have hs : (discreteXvals n m 200).Pairwise (· < ·) := by
    by_cases hr : m - n ≤ 200
    · exact (xvals_small n m 200 (by exact_mod_cast hr)).1
    · exact (xvals_large_partial n m 200 (by norm_num) (by push Not at hr; exact_mod_cast hr) hcap).2.1
  obtain ⟨k, hk, e, -⟩ := discrete_mode (fun k : ℤ => hurdlePdf b psi (k : ℝ)) _ hne hs
  refine ⟨k, ?_, hpos k hk⟩
  unfold hurdleMode
  rw [hg, Except.ok_bind', e]

/-- a witness: the base that is always one, zero with probability three quarters; the reported mode is 1 -/
theorem hurdle_mode_wrong : HurdleBase (pointBase 1) ∧ (Gives (hurdleMode (pointBase 1) (1 / 4)) fun k => 0 < k) ∧
    FirstMode (hurdleLaw (pointBase 1).law (1 / 4)) 0 := by
  have hb := point_hurdle 1 (by norm_num)
  refine ⟨hb, hurdle_mode_never_zero (pointBase 1) (1 / 4) 1 1 rfl (by norm_num) rfl le_rfl (by decide), ?_⟩
  have := hurdle_prob (pointBase 1) hb (1 / 4) (by norm_num) (by norm_num)
  have hm := (hurdle_proper (pointBase 1) hb (1 / 4) (by norm_num) (by norm_num)).2
  have hle : ∀ y, y ≠ 0 → (hurdleLaw (pointBase 1).law (1 / 4)).real {y} ≤ 1 / 4 := by
    intro y hy
    have h1 : (hurdleLaw (pointBase 1).law (1 / 4)).real {y} ≤ (hurdleLaw (pointBase 1).law (1 / 4)).real {0}ᶜ :=
      measureReal_mono (by simpa using Ne.symm hy)
    rw [probReal_compl_eq_one_sub (measurableSet_singleton _), hm] at h1
    linarith
  constructor
  · intro y
    by_cases hy : y = 0
    · rw [hy]
    · linarith [hle y hy]
  · intro y hy
    linarith [hle y hy.ne]

/-- C101, what fails: on a support of more than 201 integers some integer of the support is never reported as the mode,
whatever its probability. -/
theorem truncated_mode_wide (b : Base) (l u : EReal) (n m : ℤ) (hn : max b.lo l = ((n : ℝ) : EReal))
    (hmm : min b.hi u = ((m : ℝ) : EReal)) (hr : 200 < m - n) (hcap : m - n ≤ int64Max) :
    ∃ k : ℤ, n ≤ k ∧ k ≤ m ∧ truncMode b l u ≠ .ok k := by
  have hg : truncXvals b l u .full = .ok (discreteXvals n m 200) := by
    have e : truncXvals b l u .full =
        gridXvals (truncSupport b l u).1 (truncSupport b l u).2 (truncPpf b l u) .full := rfl
    rw [e]
    exact full_grid _ _ _ n m hn hmm
  obtain ⟨hlen, hs, -, -, -⟩ := xvals_large_partial n m 200 (by norm_num) (by exact_mod_cast hr) hcap
  obtain ⟨k, hk1, hk2, hk⟩ := missing_value n m (discreteXvals n m 200) (by rw [hlen]; omega)
  have hne : discreteXvals n m 200 ≠ [] := by
    intro h; rw [h] at hlen; simp at hlen
  obtain ⟨r, hrm, e, -⟩ := discrete_mode (fun k : ℤ => truncPdf b l u (k : ℝ)) _ hne hs
  refine ⟨k, hk1, hk2, ?_⟩
  unfold truncMode
  rw [hg, Except.ok_bind', e]
  intro h
  simp only [Except.ok.injEq] at h
  exact hk (h ▸ hrm)

/-- a witness: whatever the support, if it has more than 201 integers, there is a law on it whose only possible value
is not the reported mode -/
theorem truncated_mode_wrong (n m : ℤ) (hr : 200 < m - n) (hcap : m - n ≤ int64Max) :
    ∃ (b : Base) (k : ℤ), b.discrete = true ∧ b.lo = ((n : ℝ) : EReal) ∧ b.hi = ((m : ℝ) : EReal) ∧
      b.law.real {(k : ℝ)} = 1 ∧ (∀ x, FirstMode (truncLaw b.law ⊥ ⊤) x ↔ x = k) ∧ truncMode b ⊥ ⊤ ≠ .ok k := by
  obtain ⟨hlen, hs, -, -, -⟩ := xvals_large_partial n m 200 (by norm_num) (by exact_mod_cast hr) hcap
  obtain ⟨k, hk1, hk2, hk⟩ := missing_value n m (discreteXvals n m 200) (by rw [hlen]; omega)
  let b : Base := discreteBase (Measure.dirac (k : ℝ)) ((n : ℝ) : EReal) ((m : ℝ) : EReal)
    (by rw [ae_iff, Measure.dirac_apply]; simp [hk1, hk2])
    (by rw [ae_iff, Measure.dirac_apply]
        simp only [Set.indicator_apply_eq_zero, Set.mem_ofPred_eq, Pi.one_apply, one_ne_zero, imp_false, not_not]
        exact ⟨k, rfl⟩)
  have hlaw : truncLaw b.law ⊥ ⊤ = Measure.dirac (k : ℝ) := by
    have : between ⊥ ⊤ = Set.univ := by ext y; simp [between]
    rw [truncLaw, this, ProbabilityTheory.cond_univ]; rfl
  have hone : ∀ x : ℝ, (Measure.dirac (k : ℝ)).real {x} = if x = k then 1 else 0 := by
    intro x
    rw [measureReal_def, Measure.dirac_apply]
    by_cases h : x = k
    · simp [h]
    · simp [h, Ne.symm h]
  refine ⟨b, k, rfl, rfl, rfl, ?_, ?_, ?_⟩
  · show (Measure.dirac (k : ℝ)).real {(k : ℝ)} = 1
    rw [hone, if_pos rfl]
  · intro x
    rw [hlaw]
    constructor
    · intro h
      by_contra hx
      have := h.1 k
      rw [hone, hone, if_pos rfl, if_neg hx] at this
      norm_num at this
    · rintro rfl
      refine ⟨fun y => ?_, fun y hy => ?_⟩
      · rw [hone, hone, if_pos rfl]; split_ifs <;> norm_num
      · rw [hone, hone, if_pos rfl, if_neg hy.ne]; norm_num
  · have hg : truncXvals b ⊥ ⊤ .full = .ok (discreteXvals n m 200) := by
      have e : truncXvals b ⊥ ⊤ .full =
          gridXvals (truncSupport b ⊥ ⊤).1 (truncSupport b ⊥ ⊤).2 (truncPpf b ⊥ ⊤) .full := rfl
      rw [e]
      exact full_grid _ _ _ n m (by show max b.lo ⊥ = _; rw [max_bot_right]; rfl)
        (by show min b.hi ⊤ = _; rw [min_top_right]; rfl)
    have hne : discreteXvals n m 200 ≠ [] := by
      intro h; rw [h] at hlen; simp at hlen
    obtain ⟨r, hrm, e, -⟩ := discrete_mode (fun k : ℤ => truncPdf b ⊥ ⊤ (k : ℝ)) _ hne hs
    unfold truncMode
    rw [hg, Except.ok_bind', e]
    intro h
    simp only [Except.ok.injEq] at h
    exact hk (h ▸ hrm)

/-- the hypotheses of `truncated_mode_finite` are met by a die with faces 0..3 truncated to at least 1 -/
example : Gives (truncMode (dice 3) ((1 : ℝ) : EReal) ⊤) fun k => FirstMode (truncLaw (dice 3).law ((1 : ℝ) : EReal) ⊤) k := by
  classical
  refine truncated_mode_finite (dice 3) rfl _ _ (.inr (.inr ⟨1, by norm_num⟩)) ?_ 1 3 ?_ ?_ (by norm_num)
  · show 0 < (diceLaw 3).real _
    rw [diceLaw_real]
    refine Finset.sum_pos' (fun k _ => by split_ifs <;> positivity) ⟨3, by simp, ?_⟩
    rw [if_pos (by simp only [between, Set.mem_ofPred_eq, le_top, and_true]; exact_mod_cast (by norm_num : (1 : ℝ) ≤ (3 : ℕ)))]
    positivity
  · show max (0 : EReal) _ = _
    rw [max_eq_right (by exact_mod_cast (by norm_num : (0 : ℝ) ≤ 1))]; norm_num
  · show min (((3 : ℕ) : ℝ) : EReal) ⊤ = _
    rw [min_top_right]; norm_num

/-- the hypotheses of `hurdle_mode_partial` are met by a die with faces 0..3 -/
example : Gives (hurdleMode (dice 3) (1 / 2)) fun k => FirstMode (hurdleLaw (dice 3).law (1 / 2)) k :=
  hurdle_mode_partial (dice 3) rfl (dice_hurdle 3 (by norm_num)) (1 / 2) (by norm_num) (by norm_num) 0 3
    (by show (0 : EReal) = _; norm_num) le_rfl (by norm_num) (by norm_num)
    (.inl (by show (((3 : ℕ) : ℝ) : EReal) = _; norm_num))

/-! ### Continuous -/

/-- what is asked of the bounded scalar minimiser: it returns a point strictly between the bounds, and one within its
tolerance of the minimum of a function that falls strictly and then rises strictly between them -/
structure FindsMin (tol : ℝ × ℝ → ℝ) (minimize : Minimizer) : Prop where
  inside : ∀ f a c, a < c → minimize f (a, c) ∈ Set.Ioo a c
  near : ∀ f a c m, a < c → m ∈ Set.Icc a c → PeaksAt (fun x => -f x) a c m → |minimize f (a, c) - m| ≤ tol (a, c)

private theorem peak_unique {f : ℝ → ℝ} {a c m m' : ℝ} (hm : m ∈ Set.Icc a c) (hm' : m' ∈ Set.Icc a c)
    (h : PeaksAt f a c m) (h' : PeaksAt f a c m') : m = m' := by
  have key : ∀ p q : ℝ, p ∈ Set.Icc a c → q ∈ Set.Icc a c → PeaksAt f a c p → PeaksAt f a c q → ¬ p < q := by
    intro p q hp hq h1 h2 hlt
    have e1 : (2 * p + q) / 3 ∈ Set.Ioo a c := ⟨by linarith [hp.1], by linarith [hq.2]⟩
    have e2 : (p + 2 * q) / 3 ∈ Set.Ioo a c := ⟨by linarith [hp.1], by linarith [hq.2]⟩
    have hlt' : (2 * p + q) / 3 < (p + 2 * q) / 3 := by linarith
    have g1 : f ((p + 2 * q) / 3) < f ((2 * p + q) / 3) :=
      h1.2 ⟨e1, Set.mem_Ici.2 (by linarith)⟩ ⟨e2, Set.mem_Ici.2 (by linarith)⟩ hlt'
    have g2 : f ((2 * p + q) / 3) < f ((p + 2 * q) / 3) :=
      h2.1 ⟨e1, Set.mem_Iic.2 (by linarith)⟩ ⟨e2, Set.mem_Iic.2 (by linarith)⟩ hlt'
    exact lt_asymm g1 g2
  rcases lt_trichotomy m m' with h1 | h1 | h1
  · exact absurd h1 (key m m' hm hm' h h')
  · exact h1
  · exact absurd h1 (key m' m hm' hm h' h)

/-- there is such a minimiser, for every positive tolerance -/
theorem findsMin_exists (tol : ℝ × ℝ → ℝ) (ht : ∀ e, 0 < tol e) : ∃ minimize, FindsMin tol minimize := by
  classical
  have pick : ∀ (f : ℝ → ℝ) (e : ℝ × ℝ), ∃ x : ℝ, e.1 < e.2 → x ∈ Set.Ioo e.1 e.2 ∧
      ∀ m, m ∈ Set.Icc e.1 e.2 → PeaksAt (fun x => -f x) e.1 e.2 m → |x - m| ≤ tol e := by
    intro f e
    by_cases hlt : e.1 < e.2
    swap
    · exact ⟨0, fun h => absurd h hlt⟩
    by_cases hm : ∃ m, m ∈ Set.Icc e.1 e.2 ∧ PeaksAt (fun x => -f x) e.1 e.2 m
    · obtain ⟨m, h1, h2⟩ := hm
      have hp := ht e
      by_cases ha : m = e.1
      · refine ⟨e.1 + min (tol e) ((e.2 - e.1) / 2), fun _ => ⟨⟨?_, ?_⟩, fun m' h1' h2' => ?_⟩⟩
        · have : 0 < min (tol e) ((e.2 - e.1) / 2) := lt_min hp (by linarith)
          linarith
        · have := min_le_right (tol e) ((e.2 - e.1) / 2)
          linarith
        · rw [← peak_unique h1 h1' h2 h2', ha]
          have h3 : 0 < min (tol e) ((e.2 - e.1) / 2) := lt_min hp (by linarith)
          rw [add_sub_cancel_left, abs_of_pos h3]
          exact min_le_left _ _
      · have hlt' : e.1 < m := lt_of_le_of_ne h1.1 (Ne.symm ha)
        refine ⟨m - min (tol e) ((m - e.1) / 2), fun _ => ⟨⟨?_, ?_⟩, fun m' h1' h2' => ?_⟩⟩
        · have := min_le_right (tol e) ((m - e.1) / 2)
          linarith
        · have : 0 < min (tol e) ((m - e.1) / 2) := lt_min hp (by linarith)
          linarith [h1.2]
        · rw [← peak_unique h1 h1' h2 h2']
          have h3 : 0 < min (tol e) ((m - e.1) / 2) := lt_min hp (by linarith)
          rw [show m - min (tol e) ((m - e.1) / 2) - m = -min (tol e) ((m - e.1) / 2) by ring, abs_neg, abs_of_pos h3]
          exact min_le_left _ _
    · push Not at hm
      exact ⟨(e.1 + e.2) / 2, fun _ => ⟨⟨by linarith, by linarith⟩, fun m h1 h2 => absurd h2 (hm m h1)⟩⟩
  choose g hg using pick
  exact ⟨g, fun f a c h => (hg f (a, c) h).1, fun f a c m h h1 h2 => (hg f (a, c) h).2 m h1 h2⟩

private theorem peak_clip {f : ℝ → ℝ} {a c m : ℝ} (hac : a < c) (h : PeaksAt f a c m) :
    max a (min c m) ∈ Set.Icc a c ∧ PeaksAt f a c (max a (min c m)) := by
  refine ⟨⟨le_max_left _ _, max_le hac.le (min_le_left _ _)⟩, ?_, ?_⟩
  · intro x hx y hy hxy
    have hy2 : y ≤ max a (min c m) := hy.2
    have hya : a < y := hy.1.1
    have : y ≤ m := by
      rcases le_max_iff.1 hy2 with h1 | h1
      · linarith
      · exact h1.trans (min_le_right _ _)
    exact h.1 ⟨hx.1, (hxy.le.trans this : x ≤ m)⟩ ⟨hy.1, this⟩ hxy
  · intro x hx y hy hxy
    have hx2 : max a (min c m) ≤ x := hx.2
    have hxc : x < c := hx.1.2
    have : m ≤ x := by
      have := (le_max_right a (min c m)).trans hx2
      rcases min_le_iff.1 this with h1 | h1
      · linarith
      · exact h1
    exact h.2 ⟨hx.1, this⟩ ⟨hy.1, (this.trans hxy.le : m ≤ y)⟩ hxy

private theorem peaks_congr {f g : ℝ → ℝ} {a c m k : ℝ} (hk : 0 < k) (h : PeaksAt f a c m)
    (hg : ∀ x ∈ Set.Ioo a c, g x = k * f x) : PeaksAt g a c m := by
  refine ⟨fun x hx y hy hxy => ?_, fun x hx y hy hxy => ?_⟩
  · rw [hg x hx.1, hg y hy.1]; exact mul_lt_mul_of_pos_left (h.1 hx hy hxy) hk
  · show g y < g x
    rw [hg x hx.1, hg y hy.1]; exact mul_lt_mul_of_pos_left (h.2 hx hy hxy) hk

/-- the search, for a density that rises strictly and then falls strictly between the ends -/
private theorem findMode_near {tol : ℝ × ℝ → ℝ} {minimize : Minimizer} (hmin : FindsMin tol minimize) (pdf : ℝ → ℝ)
    (a c m : ℝ) (hac : a < c) (h : PeaksAt pdf a c m) :
    Gives (findMode minimize pdf (some (a, c))) fun x =>
      x ∈ Set.Ioo a c ∧ |x - max a (min c m)| ≤ tol (a, c) ∧ PeakNear pdf a c (tol (a, c)) x := by
  obtain ⟨h1, h2⟩ := peak_clip hac h
  set M := max a (min c m)
  have hin := hmin.inside (fun x => -pdf x) a c hac
  have hn := hmin.near (fun x => -pdf x) a c M hac h1 (by simpa using h2)
  refine ⟨minimize (fun x => -pdf x) (a, c), ?_, hin, hn, ?_⟩
  · unfold findMode
    simp only [if_neg (not_lt.2 hac.le)]
  · set x := minimize (fun x => -pdf x) (a, c)
    obtain ⟨n1, n2⟩ := abs_le.1 hn
    intro y hy hfar
    rcases lt_abs.1 hfar with hf | hf
    · refine ⟨max M x, ⟨lt_max_of_lt_right hin.1, max_lt ?_ hin.2⟩, ?_, ?_⟩
      · linarith [hy.2]
      · rcases le_total M x with h3 | h3
        · rw [max_eq_right h3, sub_self, abs_zero]; exact (abs_nonneg _).trans hn
        · rw [max_eq_left h3, abs_sub_comm]; exact hn
      · have hlt : max M x < y := max_lt (by linarith) (by linarith [(abs_nonneg _).trans hn])
        refine h2.2 ⟨⟨lt_max_of_lt_right hin.1, hlt.trans hy.2⟩, Set.mem_Ici.2 (le_max_left _ _)⟩ ⟨hy, ?_⟩ hlt
        exact (le_max_left M x).trans hlt.le
    · refine ⟨min M x, ⟨lt_min ?_ hin.1, min_lt_of_right_lt hin.2⟩, ?_, ?_⟩
      · linarith [hy.1]
      · rcases le_total M x with h3 | h3
        · rw [min_eq_left h3, abs_sub_comm]; exact hn
        · rw [min_eq_right h3, sub_self, abs_zero]; exact (abs_nonneg _).trans hn
      · have hlt : y < min M x := lt_min (by linarith) (by linarith [(abs_nonneg _).trans hn])
        exact h2.1 ⟨hy, hlt.le.trans (min_le_left M x)⟩ ⟨⟨hy.1.trans hlt, min_lt_of_right_lt hin.2⟩,
          Set.mem_Iic.2 (min_le_left _ _)⟩ hlt

/-- C101: the mode of a family without a formula for it, if its density rises strictly up to a point and then falls
strictly: within the tolerance of the minimiser of that point, moved into the interval searched. -/
theorem family_mode_cont {tol : ℝ × ℝ → ℝ} {minimize : Minimizer} (hmin : FindsMin tol minimize) (b : Base)
    (a c m : ℝ) (he : fullEnds b.lo b.hi (fun q => some (b.ppf q)) = some (a, c)) (hac : a < c)
    (h : PeaksAt b.pdf a c m) :
    Gives (baseModeC minimize b) fun x =>
      x ∈ Set.Ioo a c ∧ |x - max a (min c m)| ≤ tol (a, c) ∧ PeakNear b.pdf a c (tol (a, c)) x := by
  unfold baseModeC
  rw [he]
  exact findMode_near hmin _ a c m hac h

/-- C101: the mode of a truncated continuous distribution, if the density of the base rises strictly up to a point and
then falls strictly: within the tolerance of that point, moved into the interval searched. -/
theorem truncated_mode_cont {tol : ℝ × ℝ → ℝ} {minimize : Minimizer} (hmin : FindsMin tol minimize) (b : Base)
    (hd : b.discrete = false) (l u : EReal) (hm : 0 < b.law.real (between l u)) (a c m : ℝ)
    (he : truncEnds b l u = some (a, c)) (hac : a < c) (h : PeaksAt b.pdf a c m) :
    Gives (truncModeC minimize b l u) fun x =>
      x ∈ Set.Ioo a c ∧ |x - max a (min c m)| ≤ tol (a, c) ∧ PeakNear (truncPdf b l u) a c (tol (a, c)) x := by
  unfold truncModeC
  rw [he]
  obtain ⟨e1, e2⟩ := fullEnds_some he
  have ha : l ≤ (a : EReal) := by
    rcases e1 with e1 | e1
    · rw [← e1]; exact le_max_right _ _
    · obtain ⟨Q, hQ, -, hq, -⟩ := truncated_ppf b l u (by simp [hd]) hm 0.0001 (by norm_num) (by norm_num)
      rw [e1, Option.some.injEq] at hQ
      rw [hQ]; exact hq
  have hc : (c : EReal) ≤ u := by
    rcases e2 with e2 | e2
    · rw [← e2]; exact min_le_right _ _
    · obtain ⟨Q, hQ, -, -, hq⟩ := truncated_ppf b l u (by simp [hd]) hm 0.9999 (by norm_num) (by norm_num)
      rw [e2, Option.some.injEq] at hQ
      rw [hQ]; exact hq
  apply findMode_near hmin _ a c m hac
  apply peaks_congr (inv_pos.2 hm) h
  intro x hx
  rw [trunc_pdf_eq b l u (by simp [hd]) hm, Set.indicator_of_mem]
  · field_simp
  · exact ⟨ha.trans (EReal.coe_le_coe_iff.2 hx.1.le), (EReal.coe_le_coe_iff.2 hx.2.le).trans hc⟩

private theorem cens_ends (b : Base) (l u : EReal) (hp : Proper b l u) (a c : ℝ) (he : censEnds b l u = some (a, c)) :
    (censBounds b l u).1 ≤ (a : EReal) ∧ (c : EReal) ≤ (censBounds b l u).2 := by
  obtain ⟨e1, e2⟩ := fullEnds_some he
  constructor
  · rcases e1 with e1 | e1
    · rw [← e1]
    · simp only [Option.some.injEq] at e1
      rw [← e1]; exact le_min hp.le (le_max_right _ _)
  · rcases e2 with e2 | e2
    · rw [← e2]
    · simp only [Option.some.injEq] at e2
      rw [← e2]; exact min_le_left _ _

/-- C101: the same for a censored continuous distribution: the density between the bounds is searched, the atoms at
the bounds are not. -/
theorem censored_mode_cont {tol : ℝ × ℝ → ℝ} {minimize : Minimizer} (hmin : FindsMin tol minimize) (b : Base)
    (l u : EReal) (hp : Proper b l u) (a c m : ℝ) (he : censEnds b l u = some (a, c)) (hac : a < c)
    (h : PeaksAt b.pdf a c m) :
    Gives (censModeC minimize b l u) fun x =>
      x ∈ Set.Ioo a c ∧ |x - max a (min c m)| ≤ tol (a, c) ∧ PeakNear b.pdf a c (tol (a, c)) x := by
  obtain ⟨ha, hc⟩ := cens_ends b l u hp a c he
  have hpdf : ∀ x ∈ Set.Ioo a c, censPdf b (censBounds b l u).1 (censBounds b l u).2 x = b.pdf x := by
    intro x hx
    have h1 : (censBounds b l u).1 < (x : EReal) := ha.trans_lt (EReal.coe_lt_coe_iff.2 hx.1)
    have h2 : (x : EReal) < (censBounds b l u).2 := (EReal.coe_lt_coe_iff.2 hx.2).trans_le hc
    rw [censPdf_eq, if_neg h2.ne, if_neg h1.ne', if_neg (by push Not; exact ⟨h1.le, h2.le⟩)]
  unfold censModeC
  rw [he]
  obtain ⟨x, e, h1, h2, h3⟩ := findMode_near hmin (censPdf b (censBounds b l u).1 (censBounds b l u).2) a c m hac
    (peaks_congr one_pos h fun x hx => by rw [hpdf x hx, one_mul])
  refine ⟨x, e, h1, h2, fun y hy hf => ?_⟩
  obtain ⟨z, hz, hz1, hz2⟩ := h3 y hy hf
  exact ⟨z, hz, hz1, by rwa [hpdf y hy, hpdf z hz] at hz2⟩

private theorem cont_point (b : Base) (hd : b.discrete = false) (x : ℝ) : b.law.real {x} = 0 := by
  rw [measureReal_def, (b.continuous_law hd).2, withDensity_apply _ (measurableSet_singleton x)]
  simp

/-- C101, what fails: whatever the minimiser, the mode reported by a censored continuous distribution is a value of
probability zero, also when a bound has positive probability. -/
theorem censored_mode_misses_atom {tol : ℝ × ℝ → ℝ} {minimize : Minimizer} (hmin : FindsMin tol minimize) (b : Base)
    (hd : b.discrete = false) (l u : EReal) (hp : Proper b l u) (a c : ℝ) (he : censEnds b l u = some (a, c))
    (hac : a < c) (hL : (censBounds b l u).1 ≠ ⊥) (hatom : 0 < b.cdf (censBounds b l u).1) :
    Gives (censModeC minimize b l u) fun x =>
      (censLaw b.law l u).real {x} = 0 ∧ 0 < (censLaw b.law l u).real {(censBounds b l u).1.toReal} := by
  obtain ⟨ha, hc⟩ := cens_ends b l u hp a c he
  have hin := hmin.inside (fun x => -censPdf b (censBounds b l u).1 (censBounds b l u).2 x) a c hac
  refine ⟨minimize (fun x => -censPdf b (censBounds b l u).1 (censBounds b l u).2 x) (a, c), ?_, ?_, ?_⟩
  · unfold censModeC
    rw [he]
    unfold findMode
    simp only [if_neg (not_lt.2 hac.le)]
  · rw [b.censLaw_cut hp.le, b.cens_point hp]
    have h1 := ha.trans_lt (EReal.coe_lt_coe_iff.2 hin.1)
    have h2 := (EReal.coe_lt_coe_iff.2 hin.2).trans_le hc
    rw [if_neg h1.ne', if_neg h2.ne, if_neg (by push Not; exact ⟨h1.le, h2.le⟩), cont_point b hd]
  · rw [b.censLaw_cut hp.le, b.cens_point hp, EReal.coe_toReal (ne_top_of_lt hp) hL, if_pos rfl]
    exact hatom

/-- the hypotheses are met by the uniform law on [-1, 1] censored below at 0, where zero has probability one half -/
example : ∃ minimize : Minimizer, Gives (censModeC minimize (unif (-1) 1 (by norm_num)) ((0 : ℝ) : EReal) ⊤) fun x =>
    (censLaw (unif (-1) 1 (by norm_num)).law ((0 : ℝ) : EReal) ⊤).real {x} = 0 ∧
      0 < (censLaw (unif (-1) 1 (by norm_num)).law ((0 : ℝ) : EReal) ⊤).real {0} := by
  obtain ⟨mi, hmi⟩ := findsMin_exists (fun _ => 0.00001) (fun _ => by norm_num)
  have hb : censBounds (unif (-1) 1 (by norm_num)) ((0 : ℝ) : EReal) ⊤ = (((0 : ℝ) : EReal), ((1 : ℝ) : EReal)) := by
    unfold censBounds
    have h1 : max (unif (-1) 1 (by norm_num)).lo ((0 : ℝ) : EReal) = ((0 : ℝ) : EReal) :=
      max_eq_right (EReal.coe_le_coe_iff.2 (by norm_num : (-1 : ℝ) ≤ 0))
    rw [h1, min_top_right]; rfl
  have hp : Proper (unif (-1) 1 (by norm_num)) ((0 : ℝ) : EReal) ⊤ := by
    unfold Proper; rw [hb]; exact EReal.coe_lt_coe_iff.2 one_pos
  have he : censEnds (unif (-1) 1 (by norm_num)) ((0 : ℝ) : EReal) ⊤ = some (0, 1) := by
    unfold censEnds fullEnds
    rw [hb]
    simp [finite, -EReal.coe_zero, -EReal.coe_one]
  have hat : 0 < (unif (-1) 1 (by norm_num)).cdf (censBounds (unif (-1) 1 (by norm_num)) ((0 : ℝ) : EReal) ⊤).1 := by
    rw [hb, Base.cdf_coe, unif_real _ _ _ _ measurableSet_Iic,
      show Set.Iic (0 : ℝ) ∩ Set.Icc (-1) 1 = Set.Icc (-1) 0 by
        ext y; simp only [Set.mem_inter_iff, Set.mem_Iic, Set.mem_Icc]
        exact ⟨fun h => ⟨h.2.1, h.1⟩, fun h => ⟨h.2, h.1, h.2.trans zero_le_one⟩⟩]
    norm_num
  obtain ⟨x, e, h1, h2⟩ := censored_mode_misses_atom hmi _ rfl _ _ hp 0 1 he one_pos (by rw [hb]; exact EReal.coe_ne_bot 0) hat
  rw [hb] at h2
  exact ⟨mi, x, e, h1, by simpa using h2⟩

/-- C101, what fails: the same for a hurdle over a continuous base on the positive numbers, where zero has probability
`1 - psi`. -/
theorem hurdle_mode_misses_atom {tol : ℝ × ℝ → ℝ} {minimize : Minimizer} (hmin : FindsMin tol minimize) (b : Base)
    (hd : b.discrete = false) (hb : HurdleBase b) (psi : ℝ) (h0 : 0 ≤ psi) (h1 : psi < 1) (a c : ℝ)
    (he : hurdleEnds b psi = some (a, c)) (hac : a < c) (ha : 0 ≤ a) :
    Gives (hurdleModeC minimize b psi) fun x =>
      (hurdleLaw b.law psi).real {x} = 0 ∧ (hurdleLaw b.law psi).real {0} = 1 - psi ∧ 0 < 1 - psi := by
  classical
  have hin := hmin.inside (fun x => -hurdlePdf b psi x) a c hac
  refine ⟨minimize (fun x => -hurdlePdf b psi x) (a, c), ?_, ?_, (hurdle_proper b hb psi h0 h1.le).2, by linarith⟩
  · unfold hurdleModeC
    rw [he]
    unfold findMode
    simp only [if_neg (not_lt.2 hac.le)]
  · have hx : (0 : ℝ) < minimize (fun x => -hurdlePdf b psi x) (a, c) := ha.trans_lt hin.1
    rw [hurdleLaw_real _ _ h0 h1.le, if_neg (by simpa using hx.ne), zero_add]
    have : b.law.real (Set.Ioi 0 ∩ {minimize (fun x => -hurdlePdf b psi x) (a, c)}) = 0 := by
      refine le_antisymm ?_ measureReal_nonneg
      calc _ ≤ b.law.real {minimize (fun x => -hurdlePdf b psi x) (a, c)} := measureReal_mono Set.inter_subset_right
        _ = 0 := cont_point b hd _
    rw [this]; simp

/-- the density `2x` on [0, 1] -/
noncomputable def rampPdf : ℝ → ℝ := Set.indicator (Set.Icc 0 1) fun x => 2 * x

private theorem ramp_nonneg (x : ℝ) : 0 ≤ rampPdf x :=
  Set.indicator_nonneg (fun x hx => by linarith [hx.1]) x

private theorem ramp_meas : Measurable rampPdf := (measurable_const.mul measurable_id).indicator measurableSet_Icc

private theorem ramp_law : (volume.withDensity fun x => ENNReal.ofReal (rampPdf x)) =
    (volume.restrict (Set.Icc 0 1)).withDensity fun x : ℝ => ENNReal.ofReal (2 * x) := by
  have : (fun x => ENNReal.ofReal (rampPdf x)) = Set.indicator (Set.Icc 0 1) fun x => ENNReal.ofReal (2 * x) := by
    ext x
    by_cases hx : x ∈ Set.Icc (0 : ℝ) 1 <;> simp [rampPdf, hx]
  rw [this, withDensity_indicator measurableSet_Icc]

instance ramp_prob : IsProbabilityMeasure (volume.withDensity fun x => ENNReal.ofReal (rampPdf x)) := by
  constructor
  rw [ramp_law, withDensity_apply _ MeasurableSet.univ, Measure.restrict_univ,
    ← ofReal_integral_eq_lintegral_ofReal]
  · rw [MeasureTheory.integral_Icc_eq_integral_Ioc, ← intervalIntegral.integral_of_le zero_le_one]
    have : ∫ x in (0 : ℝ)..1, 2 * x = 1 := by rw [intervalIntegral.integral_const_mul, integral_id]; norm_num
    rw [this, ENNReal.ofReal_one]
  · exact (Continuous.integrableOn_Icc (by fun_prop))
  · filter_upwards [ae_restrict_mem measurableSet_Icc] with y hy
    show (0 : ℝ) ≤ 2 * y
    linarith [hy.1]

/-- a base with this density -/
noncomputable def ramp : Base :=
  densityBase rampPdf ramp_meas ramp_nonneg ((0 : ℝ) : EReal) ((1 : ℝ) : EReal) (by
    rw [ramp_law]
    have h : ∀ᵐ (y : ℝ) ∂(volume.restrict (Set.Icc (0 : ℝ) 1)),
        ((0 : ℝ) : EReal) ≤ (y : EReal) ∧ (y : EReal) ≤ ((1 : ℝ) : EReal) := by
      filter_upwards [ae_restrict_mem measurableSet_Icc] with y hy
      exact ⟨EReal.coe_le_coe_iff.2 hy.1, EReal.coe_le_coe_iff.2 hy.2⟩
    exact (withDensity_absolutelyContinuous _ _).ae_le h)

/-- the hypotheses of `truncated_mode_cont` are met: density `2x` on [0, 1], no truncation, peak at 1; the mode is
within 1e-5 of 1 -/
example : ∃ minimize : Minimizer, Gives (truncModeC minimize ramp ⊥ ⊤) fun x => |x - 1| ≤ 0.00001 := by
  obtain ⟨mi, hmi⟩ := findsMin_exists (fun _ => 0.00001) (fun _ => by norm_num)
  have hall : between ⊥ ⊤ = Set.univ := by ext y; simp [between]
  have hm : 0 < ramp.law.real (between ⊥ ⊤) := by rw [hall, probReal_univ]; norm_num
  have he : truncEnds ramp ⊥ ⊤ = some (0, 1) := by
    have h1 : (truncSupport ramp ⊥ ⊤).1 = ((0 : ℝ) : EReal) := by
      show max ramp.lo ⊥ = _; rw [max_bot_right]; rfl
    have h2 : (truncSupport ramp ⊥ ⊤).2 = ((1 : ℝ) : EReal) := by
      show min ramp.hi ⊤ = _; rw [min_top_right]; rfl
    unfold truncEnds fullEnds
    rw [h1, h2]
    simp [finite, -EReal.coe_zero, -EReal.coe_one]
  have hpk : PeaksAt ramp.pdf 0 1 1 := by
    have e : ∀ x ∈ Set.Ioo (0 : ℝ) 1, ramp.pdf x = 2 * x := fun x hx =>
      Set.indicator_of_mem (s := Set.Icc (0 : ℝ) 1) ⟨hx.1.le, hx.2.le⟩ _
    refine ⟨fun x hx y hy hxy => ?_, fun x hx y hy hxy => ?_⟩
    · rw [e x hx.1, e y hy.1]; linarith
    · exact absurd hx.1.2 (not_lt.2 hx.2)
  obtain ⟨x, e, -, h, -⟩ := truncated_mode_cont hmi ramp rfl ⊥ ⊤ hm 0 1 1 he one_pos hpk
  exact ⟨mi, x, e, by simpa using h⟩

/-- the search raises ValueError when an end of the interval is not a number -/
theorem mode_needs_ends (minimize : Minimizer) (pdf : ℝ → ℝ) : findMode minimize pdf none = .error .valueError := rfl

/-- C101: truncated to an interval outside of the support of the base, a continuous distribution has no mode: ValueError. -/
theorem truncated_mode_outside (minimize : Minimizer) (b : Base) (l u : EReal) (a c : ℝ) (ha : max b.lo l = (a : EReal))
    (hc : min b.hi u = (c : EReal)) (h : c < a) : truncModeC minimize b l u = .error .valueError := by
  have he : truncEnds b l u = some (a, c) := by
    unfold truncEnds fullEnds truncSupport
    simp only [ha, hc]
    simp [finite]
  unfold truncModeC findMode
  rw [he]
  simp [h]

/-- a uniform distribution on (0, 1), truncated to (2, 3) -/
example (minimize : Minimizer) : truncModeC minimize (unif 0 1 one_pos) ((2 : ℝ) : EReal) ((3 : ℝ) : EReal) = .error .valueError := by
  refine truncated_mode_outside minimize _ _ _ 2 1 ?_ ?_ (by norm_num)
  · rw [max_eq_right]
    exact EReal.coe_le_coe_iff.2 (by norm_num)
  · rw [min_eq_left]
    · rfl
    · exact EReal.coe_le_coe_iff.2 (by norm_num)

end Verif.Props
