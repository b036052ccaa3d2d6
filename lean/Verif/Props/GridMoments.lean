import Verif.Model.GridMoments
import Verif.Props.TruncatedMoments
import Verif.Props.Hurdle
import Verif.Props.Mixture

set_option linter.unusedSimpArgs false

/-!
# C62: moments and entropies that `Hurdle` and `Mixture` compute on a grid (discrete bases)
-/

namespace Verif.Props
open Verif MeasureTheory Verif.Spec Verif.Modifier Verif.Interval Verif.TruncatedMoments Verif.GridMoments

theorem full_grid (lo hi : EReal) (ppf : ℝ → Option EReal) (n m : ℤ) (h1 : lo = ((n : ℝ) : EReal))
    (h2 : hi = ((m : ℝ) : EReal)) : gridXvals lo hi ppf .full = .ok (discreteXvals n m 200) := by
  subst h1 h2
  unfold gridXvals
  simp only [EReal.coe_ne_top, EReal.coe_ne_bot, or_self, if_false, Except.ok_bind', pyIntOpt,
    pyInt_int, Except.pure_eq]

private theorem restricted_grid' (lo hi : EReal) (ppf : ℝ → Option EReal) (n m : ℤ)
    (h1 : ppf 0.0001 = some ((n : ℝ) : EReal)) (h2 : ppf 0.9999 = some ((m : ℝ) : EReal)) :
    gridXvals lo hi ppf .restricted = .ok (discreteXvals n m 200) := by
  unfold gridXvals
  simp only [h1, h2, Except.ok_bind', pyIntOpt, pyInt_int, Except.pure_eq]

/-! ### Hurdle -/

theorem hurdle_prob (b : Base) (hb : HurdleBase b) (psi : ℝ) (h0 : 0 ≤ psi) (h1 : psi ≤ 1) :
    IsProbabilityMeasure (hurdleLaw b.law psi) := by
  constructor
  have := (hurdle_proper b hb psi h0 h1).1
  rw [measureReal_def] at this
  rwa [ENNReal.toReal_eq_one_iff] at this

theorem hurdle_ae (b : Base) (psi : ℝ) (P : ℝ → Prop) (hz : P 0) (hP : ∀ᵐ (y : ℝ) ∂b.law, 0 < y → P y) :
    ∀ᵐ (y : ℝ) ∂(hurdleLaw b.law psi), P y := by
  have h1 : ∀ᵐ (y : ℝ) ∂(Measure.dirac (0 : ℝ)), P y := by
    rw [ae_iff, Measure.dirac_apply]; simp [hz]
  have h2 : ∀ᵐ (y : ℝ) ∂(ProbabilityTheory.cond b.law (Set.Ioi 0)), P y := by
    have a := ProbabilityTheory.ae_cond_mem (μ := b.law) (measurableSet_Ioi (a := (0 : ℝ)))
    have c : ∀ᵐ (y : ℝ) ∂(ProbabilityTheory.cond b.law (Set.Ioi 0)), 0 < y → P y :=
      ProbabilityTheory.cond_absolutelyContinuous.ae_le hP
    filter_upwards [a, c] with y h3 h4
    exact h4 h3
  unfold hurdleLaw
  rw [ae_add_measure_iff]
  exact ⟨Measure.ae_smul_measure h1 _, Measure.ae_smul_measure h2 _⟩

theorem hurdle_pmf (b : Base) (hd : b.discrete = true) (hb : HurdleBase b) (psi : ℝ) (h0 : 0 ≤ psi)
    (h1 : psi ≤ 1) : IsPmf (hurdleLaw b.law psi) (hurdlePdf b psi) := by
  refine ⟨hurdle_ae b psi _ ⟨0, by simp⟩ ?_, hurdle_mass b hd hb psi h0 h1⟩
  filter_upwards [(b.discrete_law hd).1] with y hy _ using hy

/-- C62: for a base with a finite support of at most 201 integers that contains zero, mean and variance of a
`Hurdle` are those of the hurdle law. -/
theorem hurdle_moments_partial (b : Base) (hd : b.discrete = true) (hb : HurdleBase b) (psi : ℝ) (h0 : 0 ≤ psi)
    (h1 : psi ≤ 1) (n m : ℤ) (hn : b.lo = ((n : ℝ) : EReal)) (hm : b.hi = ((m : ℝ) : EReal)) (hr : m - n ≤ 200)
    (hz : n ≤ 0) (hzm : 0 ≤ m) :
    hurdleMean b psi = .ok (mean (hurdleLaw b.law psi)) ∧
    hurdleVar b psi = .ok (central (hurdleLaw b.law psi) 2) := by
  have := hurdle_prob b hb psi h0 h1
  have hp := hurdle_pmf b hd hb psi h0 h1
  have hg : hurdleXvals b psi .full = .ok (discreteXvals n m 200) := full_grid _ _ _ n m hn hm
  obtain ⟨s1, s2⟩ := xvals_small n m 200 (by exact_mod_cast hr)
  have hsupp : ∀ᵐ (y : ℝ) ∂(hurdleLaw b.law psi), y ∈ Set.Icc (n : ℝ) m := by
    apply hurdle_ae
    · exact ⟨by exact_mod_cast hz, by exact_mod_cast hzm⟩
    · filter_upwards [b.in_support] with y hy _
      rw [hn, hm, EReal.coe_le_coe_iff, EReal.coe_le_coe_iff] at hy
      exact hy
  have key : ∀ f : ℝ → ℝ, gridExpect (hurdlePdf b psi) f (discreteXvals n m 200) = ∫ y, f y ∂(hurdleLaw b.law psi) := by
    intro f
    unfold gridExpect
    rw [sum_eq_integral _ _ f hp _ n m s1 s2, Measure.restrict_eq_self_of_ae_mem hsupp]
  have m1 : hurdleMean b psi = .ok (mean (hurdleLaw b.law psi)) := by
    unfold hurdleMean
    rw [hg]; simp only [Except.ok_bind', Except.pure_eq, key]; rfl
  refine ⟨m1, ?_⟩
  unfold hurdleVar
  rw [hg, m1]; simp only [Except.ok_bind', Except.pure_eq, key]; rfl

/-- C62: for a base that starts at an integer `n ≤ 0` and has no upper end, the mean of a `Hurdle` is the mean of the
hurdle law restricted to the values up to the 0.9999 quantile `m`, above which the law has a mass of at most 0.0001
(as long as there are at most 201 values between). -/
theorem hurdle_mean_tail (b : Base) (hd : b.discrete = true) (hb : HurdleBase b) (psi : ℝ) (h0 : 0 < psi)
    (h1 : psi ≤ 1) (hq : (0.9999 : ℝ) ≠ 1 - psi ∨ 0 < b.cdf ((0 : ℝ) : EReal)) (n : ℤ) (hn : b.lo = ((n : ℝ) : EReal))
    (hz : n ≤ 0) (hinf : b.hi = ⊤) (m : ℤ) (hm : hurdlePpf b psi 0.9999 = some ((m : ℝ) : EReal)) (hr : m - n ≤ 200) :
    hurdleMean b psi = .ok (∫ y in Set.Icc (n : ℝ) m, y ∂(hurdleLaw b.law psi)) ∧
    (hurdleLaw b.law psi).real (Set.Ioi (m : ℝ)) ≤ 0.0001 := by
  have := hurdle_prob b hb psi h0.le h1
  have hp := hurdle_pmf b hd hb psi h0.le h1
  have hg : hurdleXvals b psi .full = .ok (discreteXvals n m 200) := by
    unfold hurdleXvals gridXvals
    simp only [hn, hinf, hm, EReal.coe_ne_top, EReal.coe_ne_bot, or_self, if_false, true_or, if_true, Except.ok_bind',
      pyIntOpt, pyInt_int, Except.pure_eq]
  obtain ⟨s1, s2⟩ := xvals_small n m 200 (by exact_mod_cast hr)
  constructor
  · unfold hurdleMean gridExpect
    rw [hg]
    simp only [Except.ok_bind', Except.pure_eq]
    rw [sum_eq_integral _ _ (fun x => x) hp _ n m s1 s2]
  · obtain ⟨Q, e, hQ, -⟩ := hurdle_ppf_partial b (Or.inl hd) hb psi h0 h1 0.9999 (by norm_num) (by norm_num) hq
    rw [hm, Option.some.injEq] at e
    subst e
    have h := (hQ m).1 le_rfl
    rw [← Set.compl_Iic, probReal_compl_eq_one_sub measurableSet_Iic]
    norm_num at h ⊢
    linarith

/-- C62, what fails: if zero is not in the support of the base, the variance of a `Hurdle` leaves out the atom at
zero; the mean is right. -/
theorem hurdle_var_without_zero (b : Base) (hd : b.discrete = true) (hb : HurdleBase b) (psi : ℝ) (h0 : 0 ≤ psi)
    (h1 : psi ≤ 1) (n m : ℤ) (hn : b.lo = ((n : ℝ) : EReal)) (hm : b.hi = ((m : ℝ) : EReal)) (hr : m - n ≤ 200)
    (hz : 0 < n) (hnm : n ≤ m) :
    hurdleMean b psi = .ok (mean (hurdleLaw b.law psi)) ∧
    hurdleVar b psi = .ok (central (hurdleLaw b.law psi) 2 - (1 - psi) * mean (hurdleLaw b.law psi) ^ 2) := by
  have := hurdle_prob b hb psi h0 h1
  have hp := hurdle_pmf b hd hb psi h0 h1
  have hg : hurdleXvals b psi .full = .ok (discreteXvals n m 200) := full_grid _ _ _ n m hn hm
  obtain ⟨s1, s2⟩ := xvals_small n m 200 (by exact_mod_cast hr)
  have hnr : (0 : ℝ) < n := by exact_mod_cast hz
  have hsupp : ∀ᵐ (y : ℝ) ∂(hurdleLaw b.law psi), y ∈ Set.Icc (n : ℝ) m ∪ {0} := by
    apply hurdle_ae
    · exact Or.inr rfl
    · filter_upwards [b.in_support] with y hy _
      rw [hn, hm, EReal.coe_le_coe_iff, EReal.coe_le_coe_iff] at hy
      exact Or.inl hy
  have key : ∀ f : ℝ → ℝ, gridExpect (hurdlePdf b psi) f (discreteXvals n m 200) =
      ∫ y, f y ∂(hurdleLaw b.law psi) - (1 - psi) * f 0 := by
    intro f
    have hint : Integrable f (hurdleLaw b.law psi) := by
      refine integrable_of_integers _ 0 m f hp.1 ?_
      filter_upwards [hsupp] with y hy
      rcases hy with hy | hy
      · exact ⟨by push_cast; linarith [hy.1], hy.2⟩
      · rw [Set.mem_singleton_iff] at hy
        subst hy
        exact ⟨by simp, by exact_mod_cast (hz.le.trans hnm)⟩
    unfold gridExpect
    rw [sum_eq_integral _ _ f hp _ n m s1 s2]
    have e : ∫ y, f y ∂(hurdleLaw b.law psi) = ∫ y in Set.Icc (n : ℝ) m ∪ {0}, f y ∂(hurdleLaw b.law psi) := by
      rw [Measure.restrict_eq_self_of_ae_mem hsupp]
    rw [e, setIntegral_union _ (measurableSet_singleton 0) hint.integrableOn hint.integrableOn,
      integral_singleton, (hurdle_proper b hb psi h0 h1).2, smul_eq_mul]
    · ring
    · rw [Set.disjoint_singleton_right]
      intro h; linarith [h.1]
  have m1 : hurdleMean b psi = .ok (mean (hurdleLaw b.law psi)) := by
    unfold hurdleMean
    rw [hg]; simp only [Except.ok_bind', Except.pure_eq, key]
    rw [mul_zero, sub_zero]; rfl
  refine ⟨m1, ?_⟩
  unfold hurdleVar
  rw [hg, m1]; simp only [Except.ok_bind', Except.pure_eq, key]
  rw [zero_sub, neg_sq]; rfl

/-- the reported variance is too small as soon as the atom is real and the mean is not zero -/
theorem hurdle_var_too_small (b : Base) (hd : b.discrete = true) (hb : HurdleBase b) (psi : ℝ) (h0 : 0 ≤ psi)
    (h1 : psi < 1) (n m : ℤ) (hn : b.lo = ((n : ℝ) : EReal)) (hm : b.hi = ((m : ℝ) : EReal)) (hr : m - n ≤ 200)
    (hz : 0 < n) (hnm : n ≤ m) (hmean : mean (hurdleLaw b.law psi) ≠ 0) :
    ∃ v, hurdleVar b psi = .ok v ∧ v < central (hurdleLaw b.law psi) 2 := by
  refine ⟨_, (hurdle_var_without_zero b hd hb psi h0 h1.le n m hn hm hr hz hnm).2, ?_⟩
  have : 0 < mean (hurdleLaw b.law psi) ^ 2 := by positivity
  nlinarith

theorem dice_hurdle (n : ℕ) (hn : 0 < n) : HurdleBase (dice n) := by
  classical
  refine ⟨diceLaw_ae n _ fun k _ => by positivity, ?_⟩
  show 0 < (diceLaw n).real _
  rw [diceLaw_real]
  refine Finset.sum_pos' (fun k _ => by split_ifs <;> positivity) ⟨n, by simp, ?_⟩
  rw [if_pos (by simpa using hn)]
  positivity

/-- the hypotheses of `hurdle_moments_partial` are met by a die with faces 0..3 -/
example : hurdleMean (dice 3) (1 / 2) = .ok (mean (hurdleLaw (dice 3).law (1 / 2))) ∧
    hurdleVar (dice 3) (1 / 2) = .ok (central (hurdleLaw (dice 3).law (1 / 2)) 2) :=
  hurdle_moments_partial (dice 3) rfl (dice_hurdle 3 (by norm_num)) (1 / 2) (by norm_num) (by norm_num) 0 3
    (by show (0 : EReal) = _; norm_num) (by show (((3 : ℕ) : ℝ) : EReal) = _; norm_num) (by norm_num) (by norm_num)
    (by norm_num)

/-- the law concentrated at one integer -/
noncomputable def pointBase (k : ℤ) : Base :=
  discreteBase (Measure.dirac (k : ℝ)) (k : ℝ) (k : ℝ)
    (by rw [ae_iff, Measure.dirac_apply]; simp)
    (by rw [ae_iff, Measure.dirac_apply]
        simp only [Set.indicator_apply_eq_zero, Set.mem_ofPred_eq, Pi.one_apply, one_ne_zero, imp_false, not_not]
        exact ⟨k, rfl⟩)

theorem point_hurdle (k : ℤ) (hk : 0 < k) : HurdleBase (pointBase k) := by
  have hk' : (0 : ℝ) < k := by exact_mod_cast hk
  refine ⟨?_, ?_⟩
  · show ∀ᵐ (y : ℝ) ∂(Measure.dirac (k : ℝ)), 0 ≤ y
    rw [ae_iff, Measure.dirac_apply]; simp [hk.le]
  · show 0 < (Measure.dirac (k : ℝ)).real (Set.Ioi 0)
    rw [measureReal_def, Measure.dirac_apply]; simp [hk]

private theorem point_hurdleLaw (k : ℤ) (hk : 0 < k) (psi : ℝ) : hurdleLaw (pointBase k).law psi =
    ENNReal.ofReal (1 - psi) • Measure.dirac 0 + ENNReal.ofReal psi • Measure.dirac (k : ℝ) := by
  unfold hurdleLaw
  have hcond : ProbabilityTheory.cond (pointBase k).law (Set.Ioi 0) = Measure.dirac (k : ℝ) := by
    show ProbabilityTheory.cond (Measure.dirac (k : ℝ)) (Set.Ioi 0) = Measure.dirac (k : ℝ)
    have h1 : Measure.dirac (k : ℝ) (Set.Ioi 0) = 1 := by rw [Measure.dirac_apply]; simp [hk]
    unfold ProbabilityTheory.cond
    rw [h1, inv_one, one_smul]
    apply Measure.restrict_eq_self_of_ae_mem
    rw [ae_iff, Measure.dirac_apply]; simp [hk]
  rw [hcond]

private theorem point_ppf (k : ℤ) (q : ℝ) (h0 : 0 < q) (h1 : q ≤ 1) : (pointBase k).ppf q = ((k : ℝ) : EReal) := by
  have hq : ∀ x : ℝ, (pointBase k).ppf q ≤ (x : EReal) ↔ (k : ℝ) ≤ x := by
    intro x
    rw [(pointBase k).ppf_inverse q h0 h1 x]
    show q ≤ (Measure.dirac (k : ℝ)).real (Set.Iic x) ↔ _
    rw [measureReal_def, Measure.dirac_apply]
    by_cases hx : (k : ℝ) ≤ x
    · simp [hx, h1]
    · simp [hx, h0]
  apply le_antisymm
  · exact (hq k).2 le_rfl
  · apply le_of_forall_real
    intro x hx
    exact_mod_cast (hq x).1 hx

/-- C62, what fails: with the base that is always one and `psi = 1/2`, the hurdle variable is 0 or 1 with
probability one half each; the reported variance is 1/8, the variance is 1/4. -/
theorem hurdle_var_wrong : HurdleBase (pointBase 1) ∧ hurdleVar (pointBase 1) (1 / 2) = .ok (1 / 8) ∧
    central (hurdleLaw (pointBase 1).law (1 / 2)) 2 = 1 / 4 := by
  have hb := point_hurdle 1 (by norm_num)
  have hint : ∀ f : ℝ → ℝ, ∫ y, f y ∂(hurdleLaw (pointBase 1).law (1 / 2)) = 1 / 2 * f 0 + 1 / 2 * f 1 := by
    intro f
    rw [point_hurdleLaw 1 (by norm_num), integral_add_measure, integral_smul_measure, integral_smul_measure,
      integral_dirac, integral_dirac, ENNReal.toReal_ofReal (by norm_num), ENNReal.toReal_ofReal (by norm_num)]
    · norm_num
    · exact (integrable_dirac (by simp)).smul_measure (by simp)
    · exact (integrable_dirac (by simp)).smul_measure (by simp)
  have hmean : mean (hurdleLaw (pointBase 1).law (1 / 2)) = 1 / 2 := by unfold mean; rw [hint]; norm_num
  have hc : central (hurdleLaw (pointBase 1).law (1 / 2)) 2 = 1 / 4 := by unfold central; rw [hint, hmean]; norm_num
  refine ⟨hb, ?_, hc⟩
  rw [(hurdle_var_without_zero (pointBase 1) rfl hb (1 / 2) (by norm_num) (by norm_num) 1 1 rfl rfl (by norm_num)
    (by norm_num) le_rfl).2, hmean, hc]
  norm_num

private theorem entropyTerm_logOf (p : ℝ) (hp : 0 ≤ p) :
    entropyTerm (logOf p) = if p = 0 then none else some (-Real.negMulLog p) := by
  unfold logOf
  by_cases h : p = 0
  · simp only [h, if_true, entropyTerm]
  · simp only [h, if_false, entropyTerm, Real.negMulLog]
    rw [Real.exp_log (lt_of_le_of_ne hp (Ne.symm h))]
    congr 1; ring

private theorem eps_lt (b : Base) (hd : b.discrete = true) (hb : HurdleBase b) : b.cdf ((eps : ℝ) : EReal) < 1 := by
  have := hb.pos
  rw [hurdle_tail] at this
  rw [hurdle_eps_discrete b hd]
  linarith

/-- C62: if the 0.0001 and 0.9999 quantiles of a `Hurdle` are the integers `n` and `m`, at most 200 apart, and every
integer between them has positive probability, its entropy is the sum of `-p log p` over these integers. -/
theorem hurdle_entropy_partial (b : Base) (hd : b.discrete = true) (hb : HurdleBase b) (psi : ℝ) (h0 : 0 ≤ psi)
    (h1 : psi ≤ 1) (n m : ℤ) (q1 : hurdlePpf b psi 0.0001 = some ((n : ℝ) : EReal))
    (q2 : hurdlePpf b psi 0.9999 = some ((m : ℝ) : EReal)) (hr : m - n ≤ 200)
    (hpos : ∀ k : ℤ, n ≤ k → k ≤ m → (hurdleLaw b.law psi).real {(k : ℝ)} ≠ 0) :
    hurdleEntropy b psi =
      .ok (some (∑ k ∈ Finset.Icc n m, Real.negMulLog ((hurdleLaw b.law psi).real {(k : ℝ)}))) := by
  classical
  obtain ⟨s1, s2⟩ := xvals_small n m 200 (by exact_mod_cast hr)
  have hmap : (discreteXvals n m 200).map (fun (x : ℤ) => entropyTerm (hurdleLogpdf b psi (x : ℝ))) =
      (discreteXvals n m 200).map (fun (x : ℤ) => some (-(Real.negMulLog ((hurdleLaw b.law psi).real {(x : ℝ)})))) := by
    apply List.map_congr_left
    intro x hx
    obtain ⟨h3, h4⟩ := (s2 x).1 hx
    rw [hurdle_logpdf b psi h0 _ (eps_lt b hd hb), hurdle_mass b hd hb psi h0 h1, entropyTerm_logOf _ measureReal_nonneg, if_neg (hpos x h3 h4)]
  have hsum : ∀ (f : ℤ → ℝ) (xs : List ℤ), nanSum (xs.map fun x => some (f x)) = some (xs.map f).sum := by
    intro f xs
    unfold nanSum
    rw [if_neg (by simp), List.filterMap_map]
    simp [Function.comp_def]
  have hnd : (discreteXvals n m 200).Nodup := s1.imp (fun h => ne_of_lt h)
  have hset : (discreteXvals n m 200).toFinset = Finset.Icc n m := by ext x; simp [s2]
  have hg : hurdleXvals b psi .restricted = .ok (discreteXvals n m 200) := restricted_grid' b.lo b.hi _ n m q1 q2
  unfold hurdleEntropy
  rw [hg]
  simp only [Except.ok_bind', Except.pure_eq]
  rw [hmap, hsum, ← List.sum_toFinset _ hnd, hset, Option.map_some, Finset.sum_neg_distrib, neg_neg]

/-- C62, what fails: the entropy of a `Hurdle` is NaN as soon as one integer of its grid has probability zero. -/
theorem hurdle_entropy_gap (b : Base) (hd : b.discrete = true) (hb : HurdleBase b) (psi : ℝ) (h0 : 0 ≤ psi)
    (h1 : psi ≤ 1) (n m : ℤ) (q1 : hurdlePpf b psi 0.0001 = some ((n : ℝ) : EReal))
    (q2 : hurdlePpf b psi 0.9999 = some ((m : ℝ) : EReal)) (k : ℤ) (hk : k ∈ discreteXvals n m 200)
    (hz : (hurdleLaw b.law psi).real {(k : ℝ)} = 0) : hurdleEntropy b psi = .ok none := by
  have hg : hurdleXvals b psi .restricted = .ok (discreteXvals n m 200) := restricted_grid' b.lo b.hi _ n m q1 q2
  unfold hurdleEntropy
  rw [hg]
  simp only [Except.ok_bind', Except.pure_eq]
  have : nanSum ((discreteXvals n m 200).map fun (x : ℤ) => entropyTerm (hurdleLogpdf b psi (x : ℝ))) = none := by
    unfold nanSum
    rw [if_pos]
    rw [List.any_eq_true]
    refine ⟨none, List.mem_map.2 ⟨k, hk, ?_⟩, rfl⟩
    rw [hurdle_logpdf b psi h0 _ (eps_lt b hd hb), hurdle_mass b hd hb psi h0 h1, entropyTerm_logOf _ measureReal_nonneg, if_pos hz]
  rw [this]; rfl

private theorem point_cdf_zero (k : ℤ) (hk : 0 < k) : (pointBase k).cdf ((0 : ℝ) : EReal) = 0 := by
  rw [Base.cdf_coe]
  show (Measure.dirac (k : ℝ)).real (Set.Iic 0) = 0
  rw [measureReal_def, Measure.dirac_apply]; simp [hk]

private theorem point_ends (k : ℤ) (hk : 0 < k) :
    hurdlePpf (pointBase k) (1 / 2) 0.0001 = some (((0 : ℤ) : ℝ) : EReal) ∧
    hurdlePpf (pointBase k) (1 / 2) 0.9999 = some ((k : ℝ) : EReal) := by
  have hd : (pointBase k).discrete = true := rfl
  have e : ((0 : ℝ) : EReal) = 0 := rfl
  constructor
  · unfold hurdlePpf
    norm_num
  · have h0 := point_cdf_zero k hk
    unfold hurdlePpf
    simp only [hd, if_true, h0]
    rw [if_neg (by norm_num), if_pos (by norm_num), point_ppf k _ (by norm_num) (by norm_num)]

private theorem point_mass (k j : ℤ) (hk : 0 < k) : (hurdleLaw (pointBase k).law (1 / 2)).real {(j : ℝ)} =
    (if j = 0 then 1 / 2 else 0) + (if j = k then 1 / 2 else 0) := by
  rw [point_hurdleLaw k hk, measureReal_def, Measure.add_apply, Measure.smul_apply, Measure.smul_apply, smul_eq_mul,
    smul_eq_mul, ENNReal.toReal_add (ENNReal.mul_ne_top ENNReal.ofReal_ne_top (measure_ne_top _ _))
      (ENNReal.mul_ne_top ENNReal.ofReal_ne_top (measure_ne_top _ _)), ENNReal.toReal_mul, ENNReal.toReal_mul,
    ENNReal.toReal_ofReal (by norm_num), ENNReal.toReal_ofReal (by norm_num), Measure.dirac_apply, Measure.dirac_apply]
  congr 1
  · by_cases h : j = 0
    · simp [h]; norm_num
    · have : (0 : ℝ) ∉ ({(j : ℝ)} : Set ℝ) := by
        rw [Set.mem_singleton_iff]; exact_mod_cast Ne.symm h
      simp [h, this]
  · by_cases h : j = k
    · simp [h]
    · simp [h, Ne.symm h]

/-- the hypotheses of `hurdle_entropy_partial` are met by the base that is always one -/
example : hurdleEntropy (pointBase 1) (1 / 2) =
    .ok (some (∑ k ∈ Finset.Icc (0 : ℤ) 1, Real.negMulLog ((hurdleLaw (pointBase 1).law (1 / 2)).real {(k : ℝ)}))) := by
  obtain ⟨q1, q2⟩ := point_ends 1 (by norm_num)
  refine hurdle_entropy_partial (pointBase 1) rfl (point_hurdle 1 (by norm_num)) (1 / 2) (by norm_num) (by norm_num)
    0 1 q1 q2 (by norm_num) ?_
  intro k h1 h2
  rw [point_mass 1 k (by norm_num)]
  have : k = 0 ∨ k = 1 := by omega
  rcases this with rfl | rfl <;> norm_num

/-- C62, what fails: with the base that is always two and `psi = 1/2` the hurdle variable is 0 or 2; its entropy is
reported as NaN. -/
theorem hurdle_entropy_wrong : HurdleBase (pointBase 2) ∧ hurdleEntropy (pointBase 2) (1 / 2) = .ok none := by
  obtain ⟨q1, q2⟩ := point_ends 2 (by norm_num)
  refine ⟨point_hurdle 2 (by norm_num), hurdle_entropy_gap (pointBase 2) rfl (point_hurdle 2 (by norm_num)) (1 / 2)
    (by norm_num) (by norm_num) 0 2 q1 q2 1 ?_ ?_⟩
  · rw [(xvals_small 0 2 200 (by norm_num)).2]; norm_num
  · rw [point_mass 2 1 (by norm_num)]; norm_num

/-! ### Mixture -/

private theorem foldl_min_le (bs : List Base) (a : EReal) :
    bs.foldl (fun a c => min a c.lo) a ≤ a ∧ ∀ c ∈ bs, bs.foldl (fun a c => min a c.lo) a ≤ c.lo := by
  induction bs generalizing a with
  | nil => simp
  | cons b bs ih =>
    obtain ⟨h1, h2⟩ := ih (min a b.lo)
    simp only [List.foldl_cons, List.forall_mem_cons]
    exact ⟨h1.trans (min_le_left _ _), h1.trans (min_le_right _ _), h2⟩

private theorem le_foldl_max (bs : List Base) (a : EReal) :
    a ≤ bs.foldl (fun a c => max a c.hi) a ∧ ∀ c ∈ bs, c.hi ≤ bs.foldl (fun a c => max a c.hi) a := by
  induction bs generalizing a with
  | nil => simp
  | cons b bs ih =>
    obtain ⟨h1, h2⟩ := ih (max a b.hi)
    simp only [List.foldl_cons, List.forall_mem_cons]
    exact ⟨(le_max_left _ _).trans h1, (le_max_right _ _).trans h1, h2⟩

theorem mixSupport_le (bs : List Base) (lo hi : EReal) (h : mixSupport bs = .ok (lo, hi)) :
    ∀ b ∈ bs, lo ≤ b.lo ∧ b.hi ≤ hi := by
  cases bs with
  | nil => simp [mixSupport] at h
  | cons b bs =>
    simp only [mixSupport, Except.ok.injEq, Prod.mk.injEq] at h
    obtain ⟨rfl, rfl⟩ := h
    obtain ⟨h1, h2⟩ := foldl_min_le bs b.lo
    obtain ⟨h3, h4⟩ := le_foldl_max bs b.hi
    intro c hc
    rcases List.mem_cons.1 hc with rfl | hc
    · exact ⟨h1, h3⟩
    · exact ⟨h2 c hc, h4 c hc⟩

theorem mix_ae (bs : List Base) (ws : List ℝ) (P : ℝ → Prop) (h : ∀ b ∈ bs, ∀ᵐ (y : ℝ) ∂b.law, P y) :
    ∀ᵐ (y : ℝ) ∂(mixLaw (bs.map Base.law) ws), P y := by
  rw [ae_iff, mixLaw_pairs, list_sum_apply _ (fun w => ENNReal.ofReal (w / ws.sum))]
  apply List.sum_eq_zero
  intro x hx
  obtain ⟨p, hp, rfl⟩ := List.mem_map.1 hx
  rw [ae_iff.1 (h p.1 (List.of_mem_zip hp).1), mul_zero]

private theorem mix_prob (bs : List Base) (ws : List ℝ) (h : GoodWeights bs.length ws) :
    IsProbabilityMeasure (mixLaw (bs.map Base.law) ws) := by
  have := mixture_proper bs ws h
  exact ⟨by rw [measureReal_def, ENNReal.toReal_eq_one_iff] at this; exact this⟩

private theorem mix_pmf (bs : List Base) (ws : List ℝ) (h : GoodWeights bs.length ws)
    (hd : ∀ b ∈ bs, b.discrete = true) : IsPmf (mixLaw (bs.map Base.law) ws) (mixPdf bs ws) :=
  ⟨mix_ae bs ws _ fun b hb => (b.discrete_law (hd b hb)).1, mixture_mass bs ws h hd⟩

/-- C62: if the components live on at most 201 integers `n..m` and report their own means and variances, skewness
and kurtosis of a `Mixture` are those of the mixture law, whatever the numerical `ppf` does. -/
theorem mixture_skewness_kurtosis (bs : List Base) (ws : List ℝ) (h : GoodWeights bs.length ws)
    (hd : ∀ b ∈ bs, b.discrete = true) (ppf : ℝ → Option EReal) (n m : ℤ)
    (hs : mixSupport bs = .ok (((n : ℝ) : EReal), ((m : ℝ) : EReal))) (hr : m - n ≤ 200)
    (hv : central (mixLaw (bs.map Base.law) ws) 2 ≠ 0) :
    mixSkewness bs (bs.map fun b => (mean b.law, central b.law 2)) ws ppf =
      .ok (some (skew (mixLaw (bs.map Base.law) ws))) ∧
    mixKurtosis bs (bs.map fun b => (mean b.law, central b.law 2)) ws ppf =
      .ok (some (exKurt (mixLaw (bs.map Base.law) ws))) := by
  have := mix_prob bs ws h
  have hp := mix_pmf bs ws h hd
  have hin : ∀ b ∈ bs, ∀ᵐ (y : ℝ) ∂b.law, (n : ℝ) ≤ y ∧ y ≤ m := by
    intro b hb
    obtain ⟨h1, h2⟩ := mixSupport_le bs _ _ hs b hb
    filter_upwards [b.in_support] with y hy
    exact ⟨by exact_mod_cast h1.trans hy.1, by exact_mod_cast hy.2.trans h2⟩
  have hint : ∀ f : ℝ → ℝ, ∀ b ∈ bs, Integrable f b.law := fun f b hb =>
    integrable_of_integers b.law n m f (b.discrete_law (hd b hb)).1 (hin b hb)
  obtain ⟨em, ev⟩ := mixture_mean_var bs ws h (hint _) (hint _)
  have hsupp : ∀ᵐ (y : ℝ) ∂(mixLaw (bs.map Base.law) ws), y ∈ Set.Icc (n : ℝ) m := mix_ae bs ws _ hin
  have hg : mixXvals bs ppf .full = .ok (discreteXvals n m 200) := by
    unfold mixXvals
    rw [hs]
    exact full_grid _ _ ppf n m rfl rfl
  obtain ⟨s1, s2⟩ := xvals_small n m 200 (by exact_mod_cast hr)
  have key : ∀ f : ℝ → ℝ, gridExpect (mixPdf bs ws) f (discreteXvals n m 200) =
      ∫ y, f y ∂(mixLaw (bs.map Base.law) ws) := by
    intro f
    unfold gridExpect
    rw [sum_eq_integral _ _ f hp _ n m s1 s2, Measure.restrict_eq_self_of_ae_mem hsupp]
  have hv0 : 0 ≤ central (mixLaw (bs.map Base.law) ws) 2 := integral_nonneg fun y => by positivity
  have hstd : Real.sqrt (central (mixLaw (bs.map Base.law) ws) 2) ≠ 0 := by
    rw [Real.sqrt_ne_zero hv0]; exact hv
  have emm : (bs.map fun b => (mean b.law, central b.law 2)).map Prod.fst = bs.map fun b => mean b.law := by
    rw [List.map_map]; rfl
  have hst : ∀ k, mixStandard k bs (bs.map fun b => (mean b.law, central b.law 2)) ws ppf =
      .ok (some (central (mixLaw (bs.map Base.law) ws) k / Real.sqrt (central (mixLaw (bs.map Base.law) ws) 2) ^ k)) := by
    intro k
    unfold mixStandard mixStd
    rw [hg, ev, emm, em, if_neg (by linarith)]
    simp only [Except.ok_bind', Except.pure_eq, Option.bind_some, if_neg hstd, key]
    simp only [div_pow, integral_div]
    rfl
  refine ⟨hst 3, ?_⟩
  unfold mixKurtosis
  rw [hst 4]
  rfl

/-- C62: if the numerical `ppf` returns the integers `n` and `m` for 0.0001 and 0.9999, at most 201 apart, the entropy
of a `Mixture` is the sum of `-p log p` over the integers from `n` to `m`; it is the entropy of the mixture law
if there is no mass outside. -/
theorem mixture_entropy_partial (bs : List Base) (ws : List ℝ) (h : GoodWeights bs.length ws)
    (hd : ∀ b ∈ bs, b.discrete = true) (hne : bs ≠ []) (ppf : ℝ → Option EReal) (n m : ℤ)
    (h1 : ppf 0.0001 = some ((n : ℝ) : EReal)) (h2 : ppf 0.9999 = some ((m : ℝ) : EReal)) (hr : m - n ≤ 200) :
    mixEntropy bs ws ppf =
      .ok (∑ k ∈ Finset.Icc n m, Real.negMulLog ((mixLaw (bs.map Base.law) ws).real {(k : ℝ)})) ∧
    ((∀ k : ℤ, (mixLaw (bs.map Base.law) ws).real {(k : ℝ)} ≠ 0 → n ≤ k ∧ k ≤ m) →
      mixEntropy bs ws ppf = .ok (massEntropy fun x => (mixLaw (bs.map Base.law) ws).real {x})) := by
  classical
  have hp := mix_pmf bs ws h hd
  have hg : mixXvals bs ppf .restricted = .ok (discreteXvals n m 200) := by
    obtain ⟨b, bs, rfl⟩ := List.exists_cons_of_ne_nil hne
    exact restricted_grid' (bs.foldl (fun a c => min a c.lo) b.lo) (bs.foldl (fun a c => max a c.hi) b.hi) ppf n m h1 h2
  obtain ⟨s1, s2⟩ := xvals_small n m 200 (by exact_mod_cast hr)
  have hnd : (discreteXvals n m 200).Nodup := s1.imp (fun h => ne_of_lt h)
  have hset : (discreteXvals n m 200).toFinset = Finset.Icc n m := by ext x; simp [s2]
  have hterm : ∀ x : ℤ, (entropyTerm (mixLogpdf bs ws (x : ℝ))).getD 0 =
      -Real.negMulLog ((mixLaw (bs.map Base.law) ws).real {(x : ℝ)}) := by
    intro x
    rw [mixture_logpdf bs ws h, hp.2, entropyTerm_logOf _ measureReal_nonneg]
    split_ifs with h0
    · rw [h0]; simp
    · rfl
  have e1 : mixEntropy bs ws ppf =
      .ok (∑ k ∈ Finset.Icc n m, Real.negMulLog ((mixLaw (bs.map Base.law) ws).real {(k : ℝ)})) := by
    unfold mixEntropy
    rw [hg]
    simp only [Except.ok_bind', Except.pure_eq, hterm]
    rw [← List.sum_toFinset _ hnd, hset, Finset.sum_neg_distrib, neg_neg]
  refine ⟨e1, fun hout => ?_⟩
  rw [e1]
  unfold massEntropy
  rw [tsum_eq_sum]
  intro k hk
  have : (mixLaw (bs.map Base.law) ws).real {(k : ℝ)} = 0 := by
    by_contra h
    exact hk (by simpa using hout k h)
  beta_reduce
  rw [this]; simp

/-- the hypotheses are met by a coin and a die with faces 0..5, weights 1 and 3 -/
example : GoodWeights [dice 1, dice 5].length [1, 3] ∧ (∀ b ∈ [dice 1, dice 5], b.discrete = true) ∧
    mixSupport [dice 1, dice 5] = .ok ((((0 : ℤ) : ℝ) : EReal), (((5 : ℤ) : ℝ) : EReal)) ∧
    central (mixLaw ([dice 1, dice 5].map Base.law) [1, 3]) 2 ≠ 0 := by
  have hw : GoodWeights [dice 1, dice 5].length [1, 3] := ⟨rfl, by simp, by norm_num⟩
  refine ⟨hw, ?_, ?_, ?_⟩
  · intro b hb
    simp only [List.mem_cons, List.not_mem_nil, or_false] at hb
    rcases hb with rfl | rfl <;> rfl
  · have l1 : (dice 1).lo = 0 := rfl
    have l5 : (dice 5).lo = 0 := rfl
    have h1 : (dice 1).hi = (((1 : ℕ) : ℝ) : EReal) := rfl
    have h5 : (dice 5).hi = (((5 : ℕ) : ℝ) : EReal) := rfl
    simp only [mixSupport, List.foldl_cons, List.foldl_nil, l1, l5, h1, h5, min_self]
    rw [max_eq_right (EReal.coe_le_coe_iff.2 (by norm_num))]
    norm_num
  · have hi : ∀ f : ℝ → ℝ, ∀ b ∈ [dice 1, dice 5], Integrable f b.law := by
      intro f b hb
      simp only [List.mem_cons, List.not_mem_nil, or_false] at hb
      rcases hb with rfl | rfl
      · exact integrableOn_univ.1 (dice_integrable 1 _ _)
      · exact integrableOn_univ.1 (dice_integrable 5 _ _)
    rw [← (mixture_mean_var _ _ hw (hi _) (hi _)).2]
    have m1 : mean (dice 1).law = 1 / 2 := by
      show ∫ y, y ∂(diceLaw 1) = _
      rw [dice_integral]; norm_num [Finset.sum_range_succ]
    have m5 : mean (dice 5).law = 5 / 2 := by
      show ∫ y, y ∂(diceLaw 5) = _
      rw [dice_integral]; norm_num [Finset.sum_range_succ]
    have c1 : central (dice 1).law 2 = 1 / 4 := by
      unfold central; rw [m1]
      show ∫ y, (y - 1 / 2) ^ 2 ∂(diceLaw 1) = _
      rw [dice_integral]; norm_num [Finset.sum_range_succ]
    have c5 : central (dice 5).law 2 = 35 / 12 := by
      unfold central; rw [m5]
      show ∫ y, (y - 5 / 2) ^ 2 ∂(diceLaw 5) = _
      rw [dice_integral]; norm_num [Finset.sum_range_succ]
    simp only [List.map_cons, List.map_nil, m1, m5, c1, c5, mixVar, mixMean, mixWeights, List.sum_cons, List.sum_nil,
      List.zipWith_cons_cons, List.zipWith_nil_left]
    norm_num

/-- C62: the median of a Hurdle on a discrete base is a median of the hurdle law (with `psi = 1/2`, only if the base
has mass at zero), and zero as soon as more than half of the mass is there. -/
theorem hurdle_median (b : Base) (hd : b.discrete = true) (hb : HurdleBase b) (psi : ℝ) (h0 : 0 < psi) (h1 : psi ≤ 1)
    (hq : psi ≠ 1 / 2 ∨ 0 < b.cdf ((0 : ℝ) : EReal)) :
    ∃ Q, hurdleMedian b psi = some Q ∧ IsQuantile (hurdleLaw b.law psi) (1 / 2) Q ∧ (psi < 1 / 2 → Q = 0) := by
  have e : (0.5 : ℝ) = 1 / 2 := by norm_num
  obtain ⟨Q, h, hQ, hz⟩ := hurdle_ppf_partial b (Or.inl hd) hb psi h0 h1 (1 / 2) (by norm_num) (by norm_num)
    (hq.imp_left fun h h' => h (by linarith))
  exact ⟨Q, by rw [hurdleMedian, e]; exact h, hQ, fun h => hz (by linarith)⟩

end Verif.Props
