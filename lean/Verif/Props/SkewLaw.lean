import Verif.Lemmas.SkewLaw
import Verif.Lemmas.SkewStudent

/-!
# C132: SkewNormal and SkewStudentT as documented
-/

namespace Verif.Props
open MeasureTheory Set Filter Topology Verif Verif.Spec Verif.Law

/-! ### SkewNormal -/

/-- **C132**: the documented density of SkewNormal has the documented mean and variance. -/
theorem skew_normal_documented (al m s : ℝ) (hs : 0 < s) :
    HasMoments (ofPdf (skewNormalPdf al m s)) (skewNormalMean al m s) (skewNormalVar al s) :=
  SkewLaw.skewNormal_moments al m hs

/-- **C132**: with `alpha = 0` it is the normal density, changing the sign of `alpha` mirrors it at `mu`. -/
theorem skew_normal_notes (al m s t : ℝ) :
    skewNormalPdf 0 m s = normalPdf m s ∧ skewNormalPdf (-al) m s (m - t) = skewNormalPdf al m s (m + t) := by
  constructor
  · funext x
    unfold skewNormalPdf
    rw [mul_zero, SkewLaw.Phi_zero]
    ring
  · unfold skewNormalPdf normalPdf
    rw [show (m - t - m) / s * -al = (m + t - m) / s * al by ring, show -(m - t - m) ^ 2 = -(m + t - m) ^ 2 by ring]

/-- **C132**: for large `alpha` the density approaches that of a half-normal distribution that starts at `mu`, except at `mu`
itself, where it stays at half the value. -/
theorem skew_normal_limit (m s x : ℝ) (hs : 0 < s) :
    (x ≠ m → Tendsto (fun al => skewNormalPdf al m s x) atTop (𝓝 (halfNormalPdf s (x - m)))) ∧
    ∀ al, skewNormalPdf al m s m = halfNormalPdf s 0 / 2 := by
  have hn : ∀ x, 2 * normalPdf m s x = √2 / (s * √Real.pi) * Real.exp (-(x - m) ^ 2 / (2 * s ^ 2)) := by
    intro x
    unfold normalPdf
    rw [Real.sqrt_mul two_pos.le]
    have h2 := Real.mul_self_sqrt (show (0 : ℝ) ≤ 2 by norm_num)
    have : 0 < √(2 : ℝ) := by positivity
    have : 0 < √Real.pi := Real.sqrt_pos.2 Real.pi_pos
    field_simp
    rw [sq, h2]
  have lim1 : Tendsto stdNormalCdf atTop (𝓝 1) := by
    exact SkewLaw.Phi_top
  have lim0 : Tendsto stdNormalCdf atBot (𝓝 0) := by
    have h := (lim1.comp tendsto_neg_atBot_atTop).const_sub 1
    rw [sub_self] at h
    refine h.congr fun y => ?_
    simp only [Function.comp, SkewLaw.Phi_neg]
    ring
  constructor
  · intro hx
    rcases lt_or_gt_of_ne hx with h | h
    · have e : halfNormalPdf s (x - m) = 2 * 0 * normalPdf m s x := by
        unfold halfNormalPdf; rw [if_pos (by linarith)]; ring
      rw [e]
      refine ((lim0.comp ?_).const_mul 2).mul_const _
      exact tendsto_id.const_mul_atTop_of_neg (div_neg_of_neg_of_pos (by linarith) hs)
    · have e : halfNormalPdf s (x - m) = 2 * 1 * normalPdf m s x := by
        unfold halfNormalPdf; rw [if_neg (by linarith), mul_one, hn]
      rw [e]
      refine ((lim1.comp ?_).const_mul 2).mul_const _
      exact tendsto_id.const_mul_atTop (div_pos (by linarith) hs)
  · intro al
    have := hn m
    unfold skewNormalPdf halfNormalPdf
    rw [sub_self, zero_div, zero_mul, SkewLaw.Phi_zero, if_neg (lt_irrefl _)]
    rw [sub_self] at this
    linarith

/-- **C132**: with a given `alpha` every mean and every standard deviation belong to exactly one SkewNormal. -/
theorem skew_normal_match (al mean sd : ℝ) (hsd : 0 < sd) :
    ∃ m s, 0 < s ∧ HasMoments (ofPdf (skewNormalPdf al m s)) mean (sd ^ 2) ∧
      ∀ m' s', 0 < s' → HasMoments (ofPdf (skewNormalPdf al m' s')) mean (sd ^ 2) → m' = m ∧ s' = s := by
  set c := 1 - 2 * al ^ 2 / ((al ^ 2 + 1) * Real.pi) with hc
  have hp := Real.two_le_pi
  have c0 : 0 < c := by
    have h1 : 0 < (al ^ 2 + 1) * Real.pi := by positivity
    rw [hc, sub_pos, div_lt_one h1]
    nlinarith [sq_nonneg al]
  have rc := Real.sqrt_pos.2 c0
  set s := sd / √c with hs
  have s0 : 0 < s := div_pos hsd rc
  set m := mean - s * √(2 / Real.pi) * (al / √(1 + al ^ 2)) with hm
  have hv : skewNormalVar al s = sd ^ 2 := by
    unfold skewNormalVar
    rw [← hc, hs, div_pow, Real.sq_sqrt c0.le]
    field_simp
  refine ⟨m, s, s0, ?_, fun m' s' hs' h' => ?_⟩
  · have h := skew_normal_documented al m s s0
    rw [hv, show skewNormalMean al m s = mean by unfold skewNormalMean; rw [hm]; ring] at h
    exact h
  · have h := skew_normal_documented al m' s' hs'
    have e1 : mean = skewNormalMean al m' s' := h'.mean.symm.trans h.mean
    have e2 : sd ^ 2 = skewNormalVar al s' := by
      have := h.var
      rw [← e1] at this
      exact h'.var.symm.trans this
    have hss : s' = s := by
      unfold skewNormalVar at e2 hv
      rw [← hc] at e2 hv
      have : s' ^ 2 = s ^ 2 := by
        have := e2.symm.trans hv.symm
        exact mul_right_cancel₀ c0.ne' this
      exact (pow_left_inj₀ hs'.le s0.le two_ne_zero).1 this
    refine ⟨?_, hss⟩
    rw [hm, e1, ← hss]
    unfold skewNormalMean
    ring

/-- **C132**: the density of SkewNormal rises up to a single mode and falls after it. -/
theorem skew_normal_mode (al : ℝ) : ∃ c, Humped (skewNormalPdf al 0 1) c := by
  obtain ⟨c, h⟩ := SkewLaw.skew_hump al
  refine ⟨c, ?_⟩
  have e : skewNormalPdf al 0 1 = SkewLaw.skew al := by
    rw [SkewLaw.skew_std al 0 one_pos]
    funext x
    rw [sub_zero, div_one, one_mul, div_one]
  rwa [e]

/-! ### SkewStudentT -/

/-- **C132**: the documented density of SkewStudentT is one and, for `a` and `b` above one half, has the documented mean. -/
theorem skew_student_documented (a b m s : ℝ) (ha : 0 < a) (hb : 0 < b) (hs : 0 < s) :
    IsProbabilityMeasure (ofPdf (skewStudentPdf a b m s)) ∧
    (1 / 2 < a → 1 / 2 < b → Integrable (fun x => x) (ofPdf (skewStudentPdf a b m s)) ∧
      ∫ x, x ∂ofPdf (skewStudentPdf a b m s) = skewStudentMean a b m s) := by
  obtain ⟨c, hh⟩ := SkewStudent.std_hump ha hb
  have h0 : ∀ x, 0 ≤ skewStudentPdf a b m s x := fun x => by
    rw [SkewStudent.pdf_moved a b m]
    exact mul_nonneg (by positivity) (hh.pos _).le
  have hm : Measurable (skewStudentPdf a b m s) := by
    rw [SkewStudent.pdf_moved a b m]
    exact (hh.cont.measurable.comp (by fun_prop)).const_mul _
  have one : HI (skewStudentPdf a b m s) 1 := by
    have := ((show HI _ 1 from ⟨hh.int, hh.one⟩).affine m hs).cmul (1 / s)
    rw [SkewStudent.pdf_moved a b m]
    exact this.val (by field_simp)
  refine ⟨⟨?_⟩, fun h1 h2 => ?_⟩
  · rw [ofPdf, withDensity_apply _ MeasurableSet.univ, Measure.restrict_univ,
      ← ofReal_integral_eq_lintegral_ofReal one.1 (Eventually.of_forall h0), one.2, ENNReal.ofReal_one]
  · have F : HI (fun x => x * skewStudentPdf a b m s x) (skewStudentMean a b m s) := by
      have f1 := ((SkewStudent.std_first h1 h2).affine m hs)
      have f2 := ((show HI _ 1 from ⟨hh.int, hh.one⟩).affine m hs).cmul (m / s)
      refine (f1.add f2).congr (fun x => ?_) |>.val ?_
      · rw [SkewStudent.pdf_moved a b m]
        field_simp
        ring
      · unfold skewStudentMean
        field_simp
        ring
    exact ⟨(ofPdf_integrable hm h0 _).2 F.1, (ofPdf_integral hm h0 _).trans F.2⟩

/-- **C132**: for `a` and `b` above one it also has a variance. -/
theorem skew_student_variance (a b m s : ℝ) (ha : 1 < a) (hb : 1 < b) (hs : 0 < s) :
    HasMoments (ofPdf (skewStudentPdf a b m s)) (skewStudentMean a b m s)
      (s ^ 2 * ((a + b) * ((a - b) ^ 2 + (a + b - 2)) / (4 * (a - 1) * (b - 1)) - (skewStudentMean a b 0 1) ^ 2)) := by
  obtain ⟨c, hh⟩ := SkewStudent.std_hump (show 0 < a by linarith) (show 0 < b by linarith)
  have R : Raw (skewStudentPdf a b 0 1) (skewStudentMean a b 0 1)
      ((a + b) * ((a - b) ^ 2 + (a + b - 2)) / (4 * (a - 1) * (b - 1))) :=
    ⟨hh.cont.measurable, fun x => (hh.pos x).le, ⟨hh.int, hh.one⟩,
      (SkewStudent.std_first (by linarith) (by linarith)).val (by unfold skewStudentMean; ring), SkewStudent.std_second ha hb⟩
  have h := (R.affine m hs).moments
  rw [← SkewStudent.pdf_moved a b m] at h
  have e : m + s * skewStudentMean a b 0 1 = skewStudentMean a b m s := by unfold skewStudentMean; ring
  rw [← e]
  convert h using 1
  ring

/-- **C132**: with `a = b` it is StudentT with twice as many degrees of freedom. -/
theorem skew_student_equal (a m s : ℝ) (ha : 0 < a) (hs : 0 < s) : skewStudentPdf a a m s = studentPdf (2 * a) m s :=
  SkewStudent.equal_student ha m hs

/-- **C132**: `sigma` is not the standard deviation for equal `a` and `b`, as documented (skew_studentt.py:58): the variance is
then `sigma ^ 2 * a / (a - 1)`, which is larger. -/
theorem skew_student_sigma (a m s : ℝ) (ha : 1 < a) (hs : 0 < s) :
    HasMoments (ofPdf (skewStudentPdf a a m s)) m (s ^ 2 * (a / (a - 1))) ∧ s ^ 2 < s ^ 2 * (a / (a - 1)) ∧
    Tendsto (fun a => s ^ 2 * (a / (a - 1))) atTop (𝓝 (s ^ 2)) := by
  have h1 : 0 < a - 1 := by linarith
  refine ⟨?_, ?_, ?_⟩
  · have h := skew_student_variance a a m s ha ha hs
    have e : ∀ m s, skewStudentMean a a m s = m := by intro m s; unfold skewStudentMean; ring
    rw [e, e] at h
    convert h using 1
    field_simp
    ring
  · have : 1 < a / (a - 1) := by rw [lt_div_iff₀ h1]; linarith
    have := mul_lt_mul_of_pos_left this (pow_pos hs 2)
    rwa [mul_one] at this
  · have l : Tendsto (fun a : ℝ => 1 + (a - 1)⁻¹) atTop (𝓝 (1 + 0)) :=
      (tendsto_inv_atTop_zero.comp (tendsto_atTop_add_const_right atTop (-1) tendsto_id)).const_add 1
    have l2 := l.const_mul (s ^ 2)
    rw [add_zero, mul_one] at l2
    refine l2.congr' ?_
    filter_upwards [eventually_gt_atTop 1] with a ha
    have : a - 1 ≠ 0 := by linarith
    field_simp
    ring

/-- **C132**: with `a > b` values above `mu` are more likely than those as far below, exchanging `a` and `b` mirrors the density. -/
theorem skew_student_leans (a b m s t : ℝ) (ha : 0 < a) (hb : 0 < b) (hs : 0 < s) (ht : 0 < t) :
    (skewStudentPdf a b m s (m - t) < skewStudentPdf a b m s (m + t) ↔ b < a) ∧
    skewStudentPdf b a m s (m - t) = skewStudentPdf a b m s (m + t) := by
  have hn : 0 < a + b := by positivity
  have hC := inv_pos.2 (SkewStudent.const_pos ha hb)
  have e1 : (m - t - m) / s = -(t / s) := by ring
  have e2 : (m + t - m) / s = t / s := by ring
  have hts := div_pos ht hs
  constructor
  · rw [SkewStudent.pdf_hill, SkewStudent.pdf_hill, e1, e2, SkewStudent.hill_mirror, div_lt_div_iff_of_pos_right hs,
      mul_lt_mul_iff_right₀ hC]
    obtain ⟨p, q⟩ := SkewStudent.bend_lt hn (t / s)
    have hw : 0 < SkewStudent.bend (a + b) (t / s) := div_pos hts (SkewStudent.root_pos hn _)
    unfold SkewStudent.hill
    set w := SkewStudent.bend (a + b) (t / s)
    have k1 : (1 : ℝ) < (1 + w) / (1 - w) := by rw [lt_div_iff₀ q]; linarith
    have f : ∀ A B : ℝ, (1 + w) ^ A * (1 - w) ^ B = ((1 + w) / (1 - w)) ^ A * (1 - w) ^ (A + B) := by
      intro A B
      rw [Real.div_rpow p.le q.le, Real.rpow_add q]
      have := (Real.rpow_pos_of_pos q A).ne'
      field_simp
    rw [f, f, show b + 1 / 2 + (a + 1 / 2) = a + 1 / 2 + (b + 1 / 2) by ring, mul_lt_mul_iff_left₀ (Real.rpow_pos_of_pos q _),
      Real.rpow_lt_rpow_left_iff k1]
    constructor <;> intro h <;> linarith
  · rw [SkewStudent.pdf_hill, SkewStudent.pdf_hill, e1, e2, SkewStudent.hill_mirror]
    rw [add_comm b a, show skewStudentConst b a = skewStudentConst a b by
      unfold skewStudentConst; rw [add_comm b a, mul_comm (Real.Gamma b)]]

/-- **C132**: the density of SkewStudentT rises up to a single mode and falls after it. -/
theorem skew_student_mode (a b : ℝ) (ha : 0 < a) (hb : 0 < b) : ∃ c, Humped (skewStudentPdf a b 0 1) c :=
  SkewStudent.std_hump ha hb

/-- **C132**: with `a > b` the mean lies above `mu`. -/
theorem skew_student_mean_leans (a b m s : ℝ) (ha : 1 / 2 < a) (hb : 1 / 2 < b) (hs : 0 < s) :
    m < skewStudentMean a b m s ↔ b < a := by
  have g1 := Real.Gamma_pos_of_pos (show 0 < a - 1 / 2 by linarith)
  have g2 := Real.Gamma_pos_of_pos (show 0 < b - 1 / 2 by linarith)
  have g3 := Real.Gamma_pos_of_pos (show 0 < a by linarith)
  have g4 := Real.Gamma_pos_of_pos (show 0 < b by linarith)
  have g5 := Real.sqrt_pos.2 (show 0 < a + b by linarith)
  have e : skewStudentMean a b m s = m + (a - b) * (s * √(a + b) / 2 *
      (Real.Gamma (a - 1 / 2) * Real.Gamma (b - 1 / 2) / (Real.Gamma a * Real.Gamma b))) := by
    unfold skewStudentMean; ring
  have k : 0 < s * √(a + b) / 2 * (Real.Gamma (a - 1 / 2) * Real.Gamma (b - 1 / 2) / (Real.Gamma a * Real.Gamma b)) := by
    positivity
  rw [e, lt_add_iff_pos_right, mul_pos_iff_of_pos_right k, sub_pos]

/-! ### Examples -/

/-- the mean of `SkewNormal(1, 2, 1)` is `1 + 2 / √π`, its variance `4 - 4 / π` -/
example : HasMoments (ofPdf (skewNormalPdf 1 1 2)) (1 + 2 / √Real.pi) (4 - 4 / Real.pi) := by
  have h := skew_normal_documented 1 1 2 two_pos
  have hp := Real.pi_pos
  have e1 : skewNormalMean 1 1 2 = 1 + 2 / √Real.pi := by
    unfold skewNormalMean
    rw [Real.sqrt_div two_pos.le, one_pow, show (1 : ℝ) + 1 = 2 by norm_num]
    have : √(2 : ℝ) ≠ 0 := by positivity
    field_simp
  have e2 : skewNormalVar 1 2 = 4 - 4 / Real.pi := by
    unfold skewNormalVar
    field_simp
    ring
  rwa [e1, e2] at h

/-- `SkewStudentT(0, 1, 2, 2)` is StudentT with four degrees of freedom, of variance two -/
example : skewStudentPdf 2 2 0 1 = studentPdf 4 0 1 ∧ HasMoments (ofPdf (skewStudentPdf 2 2 0 1)) 0 2 := by
  refine ⟨?_, ?_⟩
  · have := skew_student_equal 2 0 1 two_pos one_pos
    norm_num at this
    exact this
  · have h := skew_student_variance 2 2 0 1 (by norm_num) (by norm_num) one_pos
    have e : skewStudentMean 2 2 0 1 = 0 := by unfold skewStudentMean; ring
    rw [e] at h
    norm_num at h
    exact h

end Verif.Props
