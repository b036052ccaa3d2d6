import Verif.Spec.TruncNormal
import Verif.Lemmas.LawNormal
import Mathlib.MeasureTheory.Integral.IntegralEqImproper

/-!
# Mean and variance of the truncated normal law
-/

namespace Verif.Law
open MeasureTheory Verif.Spec Set Filter Topology

theorem inBounds_measurable (l u : EReal) : MeasurableSet (inBounds l u) := by
  have h : Measurable fun x : ℝ => (x : EReal) := measurable_coe_real_ereal
  exact (measurableSet_le measurable_const h).inter (measurableSet_le h measurable_const)

open Classical in
/-- value at a bound, zero at an infinite one -/
noncomputable def atEnd (B : ℝ → ℝ) (b : EReal) : ℝ := if b = ⊥ ∨ b = ⊤ then 0 else B b.toReal

section
variable {B g : ℝ → ℝ} (hd : ∀ x, HasDerivAt (fun x => -B x) (g x) x) (hB : Integrable B) (hg : Integrable g)
include hd hB hg

private theorem tail_lt (b : EReal) : ∫ x in {x : ℝ | b < (x : EReal)}, g x = atEnd B b := by
  have hB' : Integrable fun x => -B x := hB.neg
  induction b with
  | bot =>
    have e : {x : ℝ | (⊥ : EReal) < (x : EReal)} = univ := by ext x; simp [EReal.bot_lt_coe]
    rw [e, Measure.restrict_univ, integral_eq_zero_of_hasDerivAt_of_integrable hd hg hB']
    simp [atEnd]
  | top =>
    have e : {x : ℝ | (⊤ : EReal) < (x : EReal)} = ∅ := by ext x; simp
    rw [e]; simp [atEnd]
  | coe a =>
    have e : {x : ℝ | (a : EReal) < (x : EReal)} = Ioi a := by ext x; simp
    rw [e, integral_Ioi_of_hasDerivAt_of_tendsto' (fun x _ => hd x) hg.integrableOn
      (tendsto_zero_of_hasDerivAt_of_integrableOn_Ioi (a := a) (fun x _ => hd x) hg.integrableOn hB'.integrableOn)]
    simp [atEnd]

private theorem tail_le (b : EReal) : ∫ x in {x : ℝ | b ≤ (x : EReal)}, g x = atEnd B b := by
  rw [← tail_lt hd hB hg b]
  induction b with
  | bot => congr 2; ext x; simp [EReal.bot_lt_coe]
  | top => congr 2; ext x; simp
  | coe a =>
    have e : {x : ℝ | (a : EReal) < (x : EReal)} = Ioi a := by ext x; simp
    have e' : {x : ℝ | (a : EReal) ≤ (x : EReal)} = Ici a := by ext x; simp
    rw [e, e', integral_Ici_eq_integral_Ioi]

theorem inBounds_integral {l u : EReal} (h : l ≤ u) : ∫ x in inBounds l u, g x = atEnd B l - atEnd B u := by
  have hm : Measurable fun x : ℝ => (x : EReal) := measurable_coe_real_ereal
  have e : inBounds l u = {x : ℝ | l ≤ (x : EReal)} \ {x : ℝ | u < (x : EReal)} := by
    ext x; simp [inBounds]
  have hsub : {x : ℝ | u < (x : EReal)} ⊆ {x : ℝ | l ≤ (x : EReal)} := fun x hx => h.trans (le_of_lt hx)
  rw [e, integral_diff (measurableSet_lt measurable_const hm) hg.integrableOn hsub, tail_le hd hB hg, tail_lt hd hB hg]

end

private theorem pdf_deriv {s : ℝ} (hs : 0 < s) (m x : ℝ) :
    HasDerivAt (normalPdf m s) (-((x - m) / s ^ 2) * normalPdf m s x) x := by
  unfold normalPdf
  have h1 : HasDerivAt (fun x : ℝ => -(x - m) ^ 2 / (2 * s ^ 2)) (-(2 * (x - m)) / (2 * s ^ 2)) x := by
    have := ((((hasDerivAt_id x).sub_const m).pow 2).neg).div_const (2 * s ^ 2)
    simpa using this
  refine (h1.exp.const_mul (1 / (s * √(2 * Real.pi)))).congr_deriv ?_
  field_simp

theorem normal_pdf_pos {s : ℝ} (hs : 0 < s) (m x : ℝ) : 0 < normalPdf m s x := by
  unfold normalPdf; positivity

theorem phiAt_eq {s : ℝ} (hs : 0 < s) (m : ℝ) (b : EReal) : phiAt m s b = s * atEnd (normalPdf m s) b := by
  unfold phiAt atEnd
  split_ifs with h
  · simp
  · unfold normalPdf
    rw [← mul_assoc]
    congr 1
    · field_simp
    · congr 1; field_simp; ring

theorem atEnd_mul (c : ℝ → ℝ) (B : ℝ → ℝ) (b : EReal) : atEnd (fun x => c x * B x) b = c b.toReal * atEnd B b := by
  unfold atEnd; split_ifs <;> simp

theorem truncRaw {m s : ℝ} (hs : 0 < s) {l u : EReal} (h : l < u) : 0 < massBetween m s l u ∧
    HI (fun x => (inBounds l u).indicator (fun x => (x - m) * normalPdf m s x) x) (s * (phiAt m s l - phiAt m s u)) ∧
    HI (fun x => (inBounds l u).indicator (fun x => (x - m) ^ 2 * normalPdf m s x) x)
      (s ^ 2 * (massBetween m s l u + alphaPhiAt m s l - alphaPhiAt m s u)) := by
  have R := normalRaw hs m
  have i0 : Integrable (normalPdf m s) := R.one.1
  have i1 : Integrable fun x => (x - m) * normalPdf m s x :=
    (R.first.add (R.one.cmul (-m))).congr (h := fun x => (x - m) * normalPdf m s x) (fun x => by ring) |>.1
  have i2 : Integrable fun x => (x - m) ^ 2 * normalPdf m s x :=
    ((R.second.add (R.first.cmul (-2 * m))).add (R.one.cmul (m ^ 2))).congr
      (h := fun x => (x - m) ^ 2 * normalPdf m s x) (fun x => by ring) |>.1
  have hms := inBounds_measurable l u
  refine ⟨?_, ⟨i1.indicator hms, ?_⟩, ⟨i2.indicator hms, ?_⟩⟩
  · unfold massBetween
    rw [setIntegral_pos_iff_support_of_nonneg_ae (Eventually.of_forall fun x => (normal_pdf_pos hs m x).le) i0.integrableOn]
    have e : Function.support (normalPdf m s) = univ := by
      ext x; simp [(normal_pdf_pos hs m x).ne']
    rw [e, univ_inter]
    obtain ⟨a, ha, hau⟩ := EReal.lt_iff_exists_real_btwn.mp h
    obtain ⟨b, hb, hbu⟩ := EReal.lt_iff_exists_real_btwn.mp hau
    refine lt_of_lt_of_le ?_ (measure_mono (s := Ioo a b) fun x hx => ?_)
    · rw [Real.volume_Ioo, ENNReal.ofReal_pos]
      have := EReal.coe_lt_coe_iff.mp hb
      linarith
    · exact ⟨(ha.trans (EReal.coe_lt_coe_iff.mpr hx.1)).le, ((EReal.coe_lt_coe_iff.mpr hx.2).trans hbu).le⟩
  · rw [integral_indicator hms, inBounds_integral (B := fun x => s ^ 2 * normalPdf m s x) ?_ (i0.const_mul _) i1 h.le,
      atEnd_mul (fun _ => s ^ 2), atEnd_mul (fun _ => s ^ 2), phiAt_eq hs, phiAt_eq hs]
    · ring
    · intro x
      refine ((pdf_deriv hs m x).const_mul (s ^ 2)).neg.congr_deriv ?_
      field_simp
  · have k := inBounds_integral (B := fun x => (s ^ 2 * (x - m)) * normalPdf m s x)
      (g := fun x => (x - m) ^ 2 * normalPdf m s x - s ^ 2 * normalPdf m s x) ?_
      ((i1.const_mul (s ^ 2)).congr (Eventually.of_forall fun x => by simp only; ring)) (i2.sub (i0.const_mul _)) h.le
    · rw [integral_sub i2.integrableOn (i0.const_mul _).integrableOn, integral_const_mul,
        atEnd_mul (fun x => s ^ 2 * (x - m)), atEnd_mul (fun x => s ^ 2 * (x - m))] at k
      rw [integral_indicator hms]
      unfold alphaPhiAt
      rw [phiAt_eq hs, phiAt_eq hs]
      have e : ∫ x in inBounds l u, (x - m) ^ 2 * normalPdf m s x = s ^ 2 * massBetween m s l u +
          (s ^ 2 * (l.toReal - m) * atEnd (normalPdf m s) l - s ^ 2 * (u.toReal - m) * atEnd (normalPdf m s) u) := by
        unfold massBetween; linarith
      rw [e]
      field_simp
      ring
    · intro x
      refine (((((hasDerivAt_id x).sub_const m).const_mul (s ^ 2)).mul (pdf_deriv hs m x)).neg).congr_deriv ?_
      simp only [id]
      field_simp
      ring

/-- the documented mean and variance are those of the documented density, whichever bounds are infinite -/
theorem truncNormal {m s : ℝ} (hs : 0 < s) {l u : EReal} (h : l < u) :
    HasMoments (ofPdf (truncNormalPdf m s l u)) (truncNormalMean m s l u) (truncNormalVar m s l u) := by
  obtain ⟨hZ, H1, H2⟩ := truncRaw (m := m) hs h
  have hms := inBounds_measurable l u
  have R := normalRaw hs m
  have H0 : HI (fun x => (inBounds l u).indicator (normalPdf m s) x) (massBetween m s l u) :=
    ⟨R.one.1.indicator hms, by rw [integral_indicator hms]; rfl⟩
  set Z := massBetween m s l u with eZ
  have ef : ∀ x, truncNormalPdf m s l u x = (1 / Z) * (inBounds l u).indicator (normalPdf m s) x := by
    intro x
    unfold truncNormalPdf indicator
    split_ifs <;> simp [eZ, div_eq_inv_mul]
  have raw : Raw (truncNormalPdf m s l u) (truncNormalMean m s l u)
      (m ^ 2 + 2 * m * (truncNormalMean m s l u - m) +
        s ^ 2 * (Z + alphaPhiAt m s l - alphaPhiAt m s u) / Z) := by
    refine ⟨?_, ?_, ?_, ?_, ?_⟩
    · rw [show truncNormalPdf m s l u = fun x => (1 / Z) * (inBounds l u).indicator (normalPdf m s) x from funext ef]
      exact (R.meas.indicator hms).const_mul _
    · intro x; rw [ef x]
      exact mul_nonneg (by positivity) (indicator_nonneg (fun y _ => R.nonneg y) x)
    · refine (H0.cmul (1 / Z)).congr (fun x => (ef x).symm) |>.val ?_
      field_simp
    · refine ((H1.cmul (1 / Z)).add (H0.cmul (m / Z))).congr (fun x => ?_) |>.val ?_
      · rw [ef x]; unfold indicator; split_ifs <;> ring
      · unfold truncNormalMean; rw [← eZ]; field_simp; ring
    · refine (((H2.cmul (1 / Z)).add (H1.cmul (2 * m / Z))).add (H0.cmul (m ^ 2 / Z))).congr (fun x => ?_) |>.val ?_
      · rw [ef x]; unfold indicator; split_ifs <;> ring
      · unfold truncNormalMean; rw [← eZ]; field_simp; ring
  have := raw.moments
  refine (show _ = truncNormalVar m s l u from ?_) ▸ this
  unfold truncNormalMean truncNormalVar
  rw [← eZ]
  field_simp
  ring

end Verif.Law
