import Verif.Lemmas.QuartileSkew
import Verif.Props.QuartileShape
import Verif.Props.HalfScale

/-!
# C121: families that lean to the right, and quartiles that lean to the left
-/

namespace Verif.Props
open MeasureTheory Set Verif.Spec Verif.Param Verif.Lemmas.QuartileShape Verif.Lemmas.QuartileSkew Verif.NumFit Verif.Optim

private theorem gamma_skew {a b : ℝ} (ha : 0 < a) (hb : 0 < b) : RightSkew (gammaPdf a b) := by
  have hr := Law.gammaRaw ha hb
  have hG := Real.Gamma_pos_of_pos ha
  have hp := Real.rpow_pos_of_pos hb a
  refine skew_gig (A := 1 - a) (B := b) (D := 0) (C := b ^ a / Real.Gamma a) hb.le le_rfl (by linarith) (by positivity)
    (fun x hx => ?_) (fun x hx => by simp [gammaPdf, not_lt.2 hx]) hr.one.1 hr.one.2
  rw [gammaPdf, if_pos hx, Real.rpow_def_of_pos hx (a - 1), mul_assoc, ← Real.exp_add, mul_div_right_comm]
  congr 2
  ring

private theorem inverseGamma_skew {a b : ℝ} (ha : 0 < a) (hb : 0 < b) : RightSkew (inverseGammaPdf a b) := by
  have hG := Real.Gamma_pos_of_pos ha
  have hp := Real.rpow_pos_of_pos hb a
  have H : Law.HI (inverseGammaPdf a b) 1 := by
    refine (((Law.invGammaInt ha hb).cmul (b ^ a / Real.Gamma a)).all measurableSet_Ioi).congr (fun x => ?_) |>.val
      (by field_simp)
    simp only [indicator, mem_Ioi, inverseGammaPdf]
    split_ifs <;> ring
  refine skew_gig (A := a + 1) (B := 0) (D := b) (C := b ^ a / Real.Gamma a) le_rfl hb.le (by linarith) (by positivity)
    (fun x hx => ?_) (fun x hx => by simp [inverseGammaPdf, not_lt.2 hx]) H.1 H.2
  rw [inverseGammaPdf, if_pos hx, Real.rpow_def_of_pos hx (-a - 1), mul_assoc, ← Real.exp_add]
  congr 2
  ring

private theorem wald_skew {m l : ℝ} (hm : 0 < m) (hl : 0 < l) : RightSkew (waldPdf m l) := by
  have h0 : ∀ x, 0 ≤ waldPdf m l x := fun x => by unfold waldPdf; split_ifs <;> positivity
  obtain ⟨hi, h1⟩ := of_prob (Measurable.ite measurableSet_Ioi (by fun_prop) measurable_const) h0 (Law.wald hm hl).prob
  refine skew_gig (A := 3 / 2) (B := l / (2 * m ^ 2)) (D := l / 2) (C := (l / (2 * Real.pi)) ^ (1 / 2 : ℝ) * Real.exp (l / m))
    (by positivity) (by positivity) (by positivity) (by positivity)
    (fun x hx => ?_) (fun x hx => by simp [waldPdf, not_lt.2 hx]) hi h1
  rw [waldPdf, if_pos hx, Real.rpow_def_of_pos hx, mul_assoc, mul_assoc, ← Real.exp_add, ← Real.exp_add]
  congr 2
  field_simp
  ring

private theorem moyal_skew (m : ℝ) {s : ℝ} (hs : 0 < s) : RightSkew (moyalPdf m s) := by
  have h0 : ∀ x, 0 ≤ moyalPdf m s x := fun x => by unfold moyalPdf; positivity
  obtain ⟨hi, h1⟩ := of_prob (by unfold moyalPdf; fun_prop) h0 (Law.moyal hs m).prob
  refine skew_extreme (a := m) (c := 1 / 2) (C := 1 / (√(2 * Real.pi) * s)) (by norm_num) (by positivity) hs (fun x => ?_) hi h1
  rw [moyalPdf, neg_mul]

private theorem gumbel_skew (m : ℝ) {b : ℝ} (hb : 0 < b) : RightSkew (gumbelPdf m b) := by
  have h0 : ∀ x, 0 ≤ gumbelPdf m b x := fun x => by unfold gumbelPdf; positivity
  obtain ⟨hi, h1⟩ := of_prob (by unfold gumbelPdf; fun_prop) h0 (Law.gumbel hb m).prob
  refine skew_extreme (a := m) (c := 1) (C := 1 / b) one_pos (by positivity) hb (fun x => ?_) hi h1
  rw [gumbelPdf, one_mul]

private theorem logNormal_skew (m : ℝ) {s : ℝ} (hs : 0 < s) :
    RightSkew fun x => if 0 < x then logNormalPdf m s x else 0 := by
  have hg := LocScale.peak_fam .normal trivial
  have hmono := LocScale.upTo_mono hg
  have hpos : ∀ y, 0 < LocScale.upTo (PeakFam.normal.pdf 0 1) y := fun y => by
    refine lt_of_le_of_lt ?_ (hmono (sub_one_lt y))
    exact integral_nonneg hg.nonneg
  refine skew_of_log (H := fun y => LocScale.upTo (PeakFam.normal.pdf 0 1) ((y - m) / s)) (c := m)
    (fun x hx => by simp [not_lt.2 hx]) (fun x hx => ?_) (fun a b hab => hmono (by gcongr)) (fun y => hpos _) (fun y => ?_)
  · rw [cdf_logNormal m hs hx]
    have := LocScale.cdf_moved hg m hs (Real.log x)
    rwa [← LocScale.fam_moved .normal m hs] at this
  · rw [show (m - y - m) / s = -((m + y - m) / s) by ring, LocScale.upTo_neg hg]

private theorem logLogistic_skew {a b : ℝ} (ha : 0 < a) (hb : 0 < b) : RightSkew (logLogisticPdf a b) := by
  refine skew_of_log (H := fun y => 1 - 1 / (1 + Real.exp (b * (y - Real.log a)))) (c := Real.log a)
    (fun x hx => by simp [logLogisticPdf, not_lt.2 hx]) (fun x hx => ?_) (fun x y hxy => ?_) (fun y => ?_) (fun y => ?_)
  · rw [cdf_logLogistic ha hb hx, Real.rpow_def_of_pos (by positivity), Real.log_div hx.ne' ha.ne', mul_comm b]
  · have : Real.exp (b * (x - Real.log a)) < Real.exp (b * (y - Real.log a)) := by
      rw [Real.exp_lt_exp]; gcongr
    have := one_div_lt_one_div_of_lt (by positivity) (add_lt_add_right this 1)
    simp only
    linarith
  · have := Real.exp_pos (b * (y - Real.log a))
    rw [sub_pos, div_lt_one (by positivity)]
    linarith
  · rw [show b * (Real.log a - y - Real.log a) = -(b * y) by ring, show b * (Real.log a + y - Real.log a) = b * y by ring,
      Real.exp_neg]
    have := Real.exp_pos (b * y)
    field_simp
    ring

private theorem pareto_skew {a m : ℝ} (ha : 0 < a) (hm : 0 < m) : RightSkew (paretoPdf a m) := by
  have hma : 0 < m ^ a := Real.rpow_pos_of_pos hm a
  have base : Law.HIs (Ici m) (fun x => x ^ (-(a + 1))) (-m ^ (-(a + 1) + 1) / (-(a + 1) + 1)) :=
    ⟨(integrableOn_Ici_iff_integrableOn_Ioi).mpr (integrableOn_Ioi_rpow_of_lt (by linarith) hm),
      by rw [integral_Ici_eq_integral_Ioi, integral_Ioi_rpow_of_lt (by linarith) hm]⟩
  have H : Law.HI (paretoPdf a m) 1 := by
    refine ((base.cmul (a * m ^ a)).all measurableSet_Ici).congr (fun x => ?_) |>.val ?_
    · simp only [indicator, mem_Ici, paretoPdf]
      split_ifs with h
      · rw [Real.rpow_neg (hm.le.trans h), div_eq_mul_inv]
      · rfl
    · rw [show -(a + 1) + 1 = -a by ring, Real.rpow_neg hm.le]; field_simp
  refine skew_falling (a := m) (fun x hx => by simp [paretoPdf, not_le.2 hx]) (fun x hx => ?_) (fun x y hx hxy => ?_) H.1 H.2
  · rw [paretoPdf, if_pos hx.le]
    have := hm.trans hx
    positivity
  · rw [paretoPdf, paretoPdf, if_pos hx, if_pos (hx.trans hxy.le)]
    have x0 := hm.trans_le hx
    have : x ^ (a + 1) < y ^ (a + 1) := Real.rpow_lt_rpow x0.le hxy (by linarith)
    have : 0 < x ^ (a + 1) := by positivity
    gcongr

private theorem half_skew (F : HalfFam) (hF : F.Ok) {s : ℝ} (hs : 0 < s) : RightSkew (F.pdf s) := by
  have hg := HalfScale.unfolded_peak F hF
  rw [HalfScale.half_folded F hF hs]
  refine skew_falling (a := 0) (fun x hx => by simp [HalfScale.folded, hx]) (fun x hx => ?_) (fun x y hx hxy => ?_)
    (HalfScale.folded_int hg hs) (HalfScale.folded_total hg hs)
  · rw [HalfScale.folded, if_neg (by linarith)]
    have := LocScale.peak_pos hg (x / s)
    positivity
  · rw [HalfScale.folded, HalfScale.folded, if_neg (by linarith), if_neg (by linarith)]
    have := hg.falls (x / s) (y / s) (by positivity) (by gcongr)
    gcongr

/-- **C121**: Gamma, ChiSquared, InverseGamma, Wald, Moyal, Gumbel, LogNormal, LogLogistic, Pareto, Exponential, HalfNormal,
HalfCauchy and HalfStudentT lean to the right, whatever their parameters: at every distance from the median there is less
probability above it than below. -/
theorem skew_right (F : SkewFam) (h : F.Good) : RightSkew F.pdf := by
  cases F with
  | gamma a b => exact gamma_skew h.1 h.2
  | chiSquared n =>
    have h : 0 < n := h
    have e : chiSquaredPdf n = gammaPdf (n / 2) (1 / 2) := by
      funext x
      unfold gammaPdf chiSquaredPdf
      split_ifs with hx
      · rw [show n / 2 - 1 = (n - 2) / 2 by ring, show -(1 / 2 * x) = -x / 2 by ring, one_div, Real.inv_rpow (by norm_num)]
        field_simp
      · rfl
    simp only [SkewFam.pdf]
    rw [e]
    exact gamma_skew (by positivity) (by norm_num)
  | inverseGamma a b => exact inverseGamma_skew h.1 h.2
  | wald m l => exact wald_skew h.1 h.2
  | moyal m s => exact moyal_skew m h
  | gumbel m b => exact gumbel_skew m h
  | logNormal m s => exact logNormal_skew m h
  | logLogistic a b => exact logLogistic_skew h.1 h.2
  | pareto a m => exact pareto_skew h.1 h.2
  | half F s => exact half_skew F h.1 h.2

/-- **C121**: the third quartile of every distribution of these families is further from the median than the first. -/
theorem skew_quartiles (F : SkewFam) (h : F.Good) (q1 q2 q3 : ℝ) (hq : Quartiles F.pdf q1 q2 q3) : q2 - q1 < q3 - q2 := by
  obtain ⟨hfin, hs⟩ := skew_right F h
  obtain ⟨e1, e2, e3⟩ := hq
  have dif : ∀ a b, a ≤ b →
      (ofPdf F.pdf).real (Ioc a b) = (ofPdf F.pdf).real (Iic b) - (ofPdf F.pdf).real (Iic a) := by
    intro a b hab
    have := measureReal_union (μ := ofPdf F.pdf) (s₁ := Iic a) (s₂ := Ioc a b) (by
      rw [Set.disjoint_left]; rintro y hy ⟨hy', -⟩; exact absurd hy (not_le.2 hy')) measurableSet_Ioc
    rw [Iic_union_Ioc_eq_Iic hab] at this
    linarith
  have mono : ∀ a b, a ≤ b → (ofPdf F.pdf).real (Iic a) ≤ (ofPdf F.pdf).real (Iic b) := fun a b hab =>
    measureReal_mono (Iic_subset_Iic.2 hab)
  have h12 : q1 < q2 := by
    by_contra hh
    have := mono _ _ (not_lt.1 hh)
    linarith
  have h := hs q2 (q2 - q1) (by linarith) e2
  rw [dif _ _ (by linarith), dif _ _ (by linarith), sub_sub_cancel, e1, e2] at h
  by_contra hh
  have := mono q3 (q2 + (q2 - q1)) (by linarith)
  linarith

/-- **C121**: "Calculate the Gamma distribution with quartiles 3, 6 and 8" (quartile.py:69): there is none. -/
theorem doc_gamma_quartiles (a b : ℝ) (ha : 0 < a) (hb : 0 < b) : ¬ Quartiles (gammaPdf a b) 3 6 8 := by
  intro h
  have := skew_quartiles (.gamma a b) ⟨ha, hb⟩ 3 6 8 h
  norm_num at this

/-- **C121**: "Calculate the HalfStudentT T distribution with quartiles 2, 9 and 12 and a value of nu=7" (quartile.py:79-80):
there is none. -/
theorem doc_half_quartiles (s : ℝ) (hs : 0 < s) : ¬ Quartiles (halfStudentPdf 7 s) 2 9 12 := by
  intro h
  have := skew_quartiles (.half (.halfStudentT 7) s) ⟨by simp [HalfFam.Ok], hs⟩ 2 9 12 h
  norm_num at this

private theorem gamma_filled (o d : Obj) (ho : construct .gamma (fun _ => none) = .ok o) (x : List ℝ)
    (kvs : List (String × ℝ)) (hk : Filled o.names o.attr x kvs) (hd : construct .gamma (fun k => kvs.lookup k) = .ok d) :
    ∃ v w, x = [v, w] ∧ law .gamma d = [some v, some w] := by
  obtain ⟨k1, k2, k3⟩ := hk
  have two : ∀ a c : String, kvs.map Prod.fst = [a, c] → ∃ v w, kvs = [(a, v), (c, w)] := by
    intro a c h
    match kvs, h with
    | [(a', v), (c', w)], h =>
      simp only [List.map_cons, List.map_nil, List.cons.injEq, and_true] at h
      obtain ⟨rfl, rfl⟩ := h
      exact ⟨v, w, rfl⟩
  simp [construct, parametrize, gammaLikeParam, anyNotNone, blank, Obj.setAll, Obj.set, Except.ok_bind', Except.pure_eq] at ho
  subst ho
  dsimp only at k1 k2 k3
  obtain ⟨v, w, rfl⟩ := two _ _ k1
  simp [Function.update] at k3
  simp [construct, parametrize, gammaLikeParam, gammaUpdate, List.lookup, anyNotNone, blank, Obj.setAll, Obj.set,
    Except.ok_bind', Except.pure_eq] at hd
  subst hd
  exact ⟨v, w, k3.symm, by simp [law, lawAttrs, Obj.setAll, Obj.set, Function.update]⟩

/-- **C121**: whatever minimum the optimiser finds, `quartile(Gamma(), q1, q2, q3)` with a median not closer to `q1` than to `q3`
returns a Gamma distribution that misses at least one of the three. -/
theorem quartile_gamma_left (o o1 : Obj) (ho : construct .gamma (fun _ => none) = .ok o) (cdf : List (Option ℝ) → ℝ → ℝ)
    (q1 q2 q3 : ℝ) (hq : q3 - q2 ≤ q2 - q1) (opt : Optimiser) (G : List ℝ → Except Err (List ℝ))
    (hG : IsObjective .gamma o.names o.attr (fun l => [cdf l q1 - 1 / 4, cdf l q2 - 1 / 2, cdf l q3 - 3 / 4]) G)
    (hfind : Finds opt G (startAt o o1) (freeBounds o [((eps : ℝ), ⊤), ((eps : ℝ), ⊤)])) :
    Gives (optimizeQuartile opt .gamma cdf q1 q2 q3 o.names [((eps : ℝ), ⊤), ((eps : ℝ), ⊤)] (getFixedParams o).1
      (getFixedParams o).2 o1) fun r =>
      ∃ v w, eps ≤ v ∧ eps ≤ w ∧ law .gamma r.2 = [some v, some w] ∧ ¬ Quartiles (gammaPdf v w) q1 q2 q3 := by
  have hep : (0 : ℝ) < eps := by unfold eps; positivity
  have he : quartileResidual cdf q1 q2 q3 = fun l => [cdf l q1 - 1 / 4, cdf l q2 - 1 / 2, cdf l q3 - 3 / 4] := by
    funext l; unfold quartileResidual; norm_num
  have hsc : ScaledNames .gamma o.names := by intro h; simp at h
  obtain ⟨x, o', e1, e2, ⟨kvs, d, e3, e4, e5, -⟩, -⟩ := fit_best opt .gamma o o1 hsc _ _ G hG hfind
  obtain ⟨v, w, rfl, e7⟩ := gamma_filled o d ho x kvs e3 e4
  have hb : freeBounds o [(((eps : ℝ) : EReal), ⊤), (((eps : ℝ) : EReal), ⊤)] =
      [(((eps : ℝ) : EReal), ⊤), (((eps : ℝ) : EReal), ⊤)] := by
    simp [construct, parametrize, gammaLikeParam, anyNotNone, blank, Obj.setAll, Obj.set, Except.ok_bind', Except.pure_eq] at ho
    subst ho
    simp [freeBounds, getFixedParams, splitStep, Function.update, List.zipIdx]
  rw [hb] at e2
  obtain ⟨-, e2⟩ := e2
  have hv := (e2 0 (by simp) (by simp)).1
  have hw := (e2 1 (by simp) (by simp)).1
  simp at hv hw
  refine ⟨(_, o'), by unfold optimizeQuartile; rw [he]; exact e1, v, w, hv, hw, e5.trans e7, fun h => ?_⟩
  have := skew_quartiles (.gamma v w) ⟨by linarith, by linarith⟩ q1 q2 q3 h
  linarith

/-! The hypotheses are met. -/

/-- quartiles exist in every family, for instance those of the Exponential with rate one, which is a Gamma -/
example : Quartiles (SkewFam.half .exponential 1).pdf (Real.log (4 / 3)) (Real.log 2) (2 * Real.log 2) ∧
    (SkewFam.half .exponential 1).Good := by
  have l2 : 0 < Real.log 2 := Real.log_pos (by norm_num)
  have l43 : 0 < Real.log (4 / 3) := Real.log_pos (by norm_num)
  refine ⟨?_, trivial, one_pos⟩
  have e1 : ∀ x, 0 < x → (ofPdf (HalfFam.exponential.pdf 1)).real (Iic x) = 1 - Real.exp (-x) := by
    intro x hx
    rw [HalfScale.half_folded .exponential trivial one_pos,
      HalfScale.cdf_folded (HalfScale.unfolded_peak .exponential trivial) one_pos hx.le, div_one]
    exact HalfScale.around_laplace hx.le
  refine ⟨?_, ?_, ?_⟩
  · simp only [SkewFam.pdf]
    rw [e1 _ l43, Real.exp_neg, Real.exp_log (by norm_num)]; norm_num
  · simp only [SkewFam.pdf]
    rw [e1 _ l2, Real.exp_neg, Real.exp_log (by norm_num)]; norm_num
  · simp only [SkewFam.pdf]
    rw [e1 _ (by linarith), Real.exp_neg, two_mul, Real.exp_add, Real.exp_log (by norm_num)]; norm_num

/-- `quartile(Gamma(), 3, 6, 8)` with an optimiser whose objective is flat, so that the start is a minimum -/
example : ∃ (o : Obj) (cdf : List (Option ℝ) → ℝ → ℝ) (opt : Optimiser) (G : List ℝ → Except Err (List ℝ)),
    construct .gamma (fun _ => none) = .ok o ∧ (8 : ℝ) - 6 ≤ 6 - 3 ∧
    IsObjective .gamma o.names o.attr (fun l => [cdf l 3 - 1 / 4, cdf l 6 - 1 / 2, cdf l 8 - 3 / 4]) G ∧
    Finds opt G (startAt o o) (freeBounds o [((eps : ℝ), ⊤), ((eps : ℝ), ⊤)]) := by
  obtain ⟨o, ho⟩ : ∃ o, construct .gamma (fun _ => none) = .ok o := by
    simp [construct, parametrize, gammaLikeParam, anyNotNone, blank, Obj.setAll, Obj.set, Except.ok_bind', Except.pure_eq]
  have ho' := ho
  simp [construct, parametrize, gammaLikeParam, anyNotNone, blank, Obj.setAll, Obj.set, Except.ok_bind', Except.pure_eq] at ho'
  refine ⟨o, fun _ _ => 0, fun _ _ => .ok (.stop [1, 1]), fun x => if x.length = 2 then
    .ok [0 - 1 / 4, 0 - 1 / 2, 0 - 3 / 4] else .error .valueError, ho, by norm_num, ⟨?_, ?_⟩, ?_⟩
  · intro cand kvs hk
    subst ho'
    obtain ⟨k1, k2, k3⟩ := hk
    match kvs, k1, k2, k3 with
    | [(a, m), (b, n)], k1, k2, k3 =>
      simp only [List.map_cons, List.map_nil, List.cons.injEq, and_true] at k1
      obtain ⟨rfl, rfl⟩ := k1
      simp [Function.update] at k3
      subst k3
      simp [construct, parametrize, gammaLikeParam, gammaUpdate, anyNotNone, blank, Obj.setAll, Obj.set, List.lookup,
        Except.map, Except.ok_bind', Except.pure_eq]
  · intro cand hc
    subst ho'
    simp [Function.update] at hc
    simp [hc]
  · have hb : freeBounds o [(((eps : ℝ) : EReal), ⊤), (((eps : ℝ) : EReal), ⊤)] =
        [(((eps : ℝ) : EReal), ⊤), (((eps : ℝ) : EReal), ⊤)] := by
      subst ho'
      simp [freeBounds, getFixedParams, splitStep, Function.update, List.zipIdx]
    rw [hb]
    refine ⟨_, rfl, [1, 1], [0 - 1 / 4, 0 - 1 / 2, 0 - 3 / 4], by simp [answer], ?_, by simp, ?_⟩
    · refine ⟨rfl, fun i hi _ => ?_⟩
      have he : eps < 1 := by unfold eps; norm_num
      simp only [List.length_cons, List.length_nil] at hi
      have he' : ((eps : ℝ) : EReal) ≤ 1 := by exact_mod_cast he.le
      interval_cases i <;> simp [he']
    · intro y _ r' hr
      by_cases h2 : y.length = 2
      · simp only [h2, if_true, Except.ok.injEq] at hr
        rw [← hr]
      · simp [h2] at hr

end Verif.Props
