import Verif.Lemmas.QuartileShape
import Verif.Props.NumFit
import Verif.Props.LocScale

/-!
# C120: which quartiles a family with two parameters can have, and what quartile returns
-/

namespace Verif.Props
open MeasureTheory Set Verif.Spec Verif.Param Verif.Lemmas.QuartileShape Verif.NumFit Verif.Optim

/-! ### the shape of the quartiles -/

private theorem line_three {z1 z2 z3 : ℝ} (hz : z1 < z2) (a b y1 y2 y3 : ℝ) :
    (y1 = a + b * z1 ∧ y2 = a + b * z2 ∧ y3 = a + b * z3) ↔
      (y3 - y2) * (z2 - z1) = (y2 - y1) * (z3 - z2) ∧ b = (y2 - y1) / (z2 - z1) ∧ a = y2 - b * z2 := by
  have h : z2 - z1 ≠ 0 := (sub_pos.2 hz).ne'
  constructor
  · rintro ⟨rfl, rfl, rfl⟩
    refine ⟨by ring, ?_, by ring⟩
    rw [eq_div_iff h]; ring
  · rintro ⟨h1, h2, h3⟩
    rw [eq_div_iff h] at h2
    refine ⟨by linarith, by linarith, ?_⟩
    have : (y3 - (a + b * z3)) * (z2 - z1) = 0 := by
      have : y3 - (a + b * z3) = (y3 - y2) - b * (z3 - z2) := by rw [h3]; ring
      rw [this, sub_mul, h1, mul_right_comm, h2]; ring
    rcases mul_eq_zero.1 this with h | h
    · linarith
    · exact absurd h ‹_›

private theorem rev3 (A B C : Prop) : (A ∧ B ∧ C) ↔ (C ∧ B ∧ A) := by tauto

private theorem log2 : 0 < Real.log 2 := Real.log_pos (by norm_num)

private theorem log43 : 0 < Real.log (4 / 3) := Real.log_pos (by norm_num)

private theorem log4 : Real.log 4 = 2 * Real.log 2 := by
  rw [show (4 : ℝ) = 2 ^ 2 by norm_num, Real.log_pow]; norm_num

private theorem gumbel_level (t : ℝ) {c : ℝ} (hc : 1 < c) :
    Real.exp (-Real.exp (-t)) = c⁻¹ ↔ t = -Real.log (Real.log c) := by
  have h0 : 0 < Real.log c := Real.log_pos hc
  have hc0 : 0 < c := by linarith
  rw [← Real.exp_log (inv_pos.2 hc0), Real.exp_eq_exp, Real.log_inv, neg_inj]
  constructor
  · intro h; rw [← h, Real.log_exp]; ring
  · intro h; rw [h, neg_neg, Real.exp_log h0]

private theorem gumbel_shape (m : ℝ) {b : ℝ} (hb : 0 < b) (q1 q2 q3 : ℝ) :
    Quartiles (gumbelPdf m b) q1 q2 q3 ↔ TwoFam.gumbel.Shape q1 q2 q3 ∧
      b = (q2 - q1) / Real.log 2 ∧ m = q2 + (q2 - q1) / Real.log 2 * Real.log (Real.log 2) := by
  have l4 : Real.log (Real.log 4) = Real.log 2 + Real.log (Real.log 2) := by
    rw [log4, Real.log_mul two_ne_zero log2.ne']
  have lev : ∀ q c : ℝ, 1 < c → ((ofPdf (gumbelPdf m b)).real (Iic q) = c⁻¹ ↔ q = m + b * -Real.log (Real.log c)) := by
    intro q c hc
    rw [cdf_gumbel m hb, gumbel_level _ hc, div_eq_iff hb.ne']
    constructor <;> intro h <;> linarith
  unfold Quartiles
  rw [show (1 : ℝ) / 4 = 4⁻¹ by norm_num, show (1 : ℝ) / 2 = 2⁻¹ by norm_num, show (3 : ℝ) / 4 = (4 / 3)⁻¹ by norm_num,
    lev _ _ (by norm_num), lev _ _ (by norm_num), lev _ _ (by norm_num), line_three (by rw [l4]; linarith [log2])]
  have e1 : -Real.log (Real.log 2) - -Real.log (Real.log 4) = Real.log 2 := by rw [l4]; ring
  have e2 : -Real.log (Real.log (4 / 3)) - -Real.log (Real.log 2) = Real.log (Real.log 2 / Real.log (4 / 3)) := by
    rw [Real.log_div log2.ne' log43.ne']; ring
  rw [e1, e2]
  refine and_congr_right fun _ => and_congr_right fun h => ?_
  rw [h, mul_neg, sub_neg_eq_add]

private theorem uniform_shape {l u : ℝ} (h : l < u) (q1 q2 q3 : ℝ) :
    Quartiles (uniformPdf l u) q1 q2 q3 ↔ TwoFam.uniform.Shape q1 q2 q3 ∧
      l = q1 - (q2 - q1) ∧ u = q3 + (q3 - q2) := by
  unfold Quartiles
  rw [cdf_uniform h (by norm_num) (by norm_num), cdf_uniform h (by norm_num) (by norm_num),
    cdf_uniform h (by norm_num) (by norm_num)]
  simp only [TwoFam.Shape]
  constructor
  · rintro ⟨h1, h2, h3⟩
    refine ⟨?_, ?_, ?_⟩ <;> linarith
  · rintro ⟨h1, h2, h3⟩
    refine ⟨?_, ?_, ?_⟩ <;> linarith

private theorem log_ratio {a b : ℝ} (ha : 0 < a) (hb : 0 < b) : Real.log (b / a) = Real.log b - Real.log a :=
  Real.log_div hb.ne' ha.ne'

private theorem geometric_mean {q1 q2 q3 : ℝ} (h1 : 0 < q1) (h2 : 0 < q2) (h3 : 0 < q3) :
    Real.log q3 - Real.log q2 = Real.log q2 - Real.log q1 ↔ q2 ^ 2 = q1 * q3 := by
  rw [← Real.log_injOn_pos.eq_iff (show q2 ^ 2 ∈ Ioi 0 by simp only [mem_Ioi]; positivity)
    (show q1 * q3 ∈ Ioi 0 by simp only [mem_Ioi]; positivity), Real.log_pow, Real.log_mul h1.ne' h3.ne']
  push_cast
  constructor <;> intro h <;> linarith

private theorem logNormal_shape {z : ℝ} (z0 : 0 < z) (hz : (ofPdf (normalPdf 0 1)).real (Iic z) = 3 / 4) (m : ℝ) {s : ℝ}
    (hs : 0 < s) {q1 q2 q3 : ℝ} (h1 : 0 < q1) (h2 : q1 < q2) (h3 : q2 < q3) :
    Quartiles (TwoFam.logNormal.pdf m s) q1 q2 q3 ↔ TwoFam.logNormal.Shape q1 q2 q3 ∧
      s = Real.log (q3 / q2) / z ∧ m = Real.log q2 := by
  have hg := LocScale.peak_fam .normal trivial
  have h2' : 0 < q2 := by linarith
  have h3' : 0 < q3 := by linarith
  have up : ∀ m s x, 0 < s → (ofPdf (normalPdf m s)).real (Iic x) = LocScale.upTo (PeakFam.normal.pdf 0 1) ((x - m) / s) := by
    intro m s x hs
    have := LocScale.cdf_moved hg m hs x
    rwa [← LocScale.fam_moved .normal m hs] at this
  have ez : LocScale.upTo (PeakFam.normal.pdf 0 1) z = 3 / 4 := by
    rw [← hz, up 0 1 z one_pos]; simp
  have ez' : LocScale.upTo (PeakFam.normal.pdf 0 1) (-z) = 1 / 4 := by
    rw [LocScale.upTo_neg hg, ez]; norm_num
  have inj := (LocScale.upTo_mono hg).injective
  have lev : ∀ q t p : ℝ, 0 < q → LocScale.upTo (PeakFam.normal.pdf 0 1) t = p →
      ((ofPdf (TwoFam.logNormal.pdf m s)).real (Iic q) = p ↔ Real.log q = m + s * t) := by
    intro q t p hq ht
    simp only [TwoFam.pdf]
    rw [cdf_logNormal m hs hq, up m s _ hs, ← ht, inj.eq_iff, div_eq_iff hs.ne']
    constructor <;> intro h <;> linarith
  unfold Quartiles
  rw [lev q1 (-z) _ h1 ez', lev q2 0 _ h2' (LocScale.upTo_zero hg), lev q3 z _ h3' ez, line_three (by linarith)]
  simp only [TwoFam.Shape, zero_sub, neg_neg, sub_zero, mul_zero, sub_neg_eq_add, zero_add]
  rw [mul_left_inj' z0.ne', geometric_mean h1 h2' h3', log_ratio h2' h3']
  refine and_congr_right fun h => ?_
  rw [(geometric_mean h1 h2' h3').2 h]

private theorem logLogistic_shape {a b : ℝ} (ha : 0 < a) (hb : 0 < b) {q1 q2 q3 : ℝ} (h1 : 0 < q1) (h2 : q1 < q2)
    (h3 : q2 < q3) :
    Quartiles (logLogisticPdf a b) q1 q2 q3 ↔ TwoFam.logLogistic.Shape q1 q2 q3 ∧
      b = Real.log 3 / Real.log (q3 / q2) ∧ a = q2 := by
  have h2' : 0 < q2 := by linarith
  have h3' : 0 < q3 := by linarith
  have l3 : 0 < Real.log 3 := Real.log_pos (by norm_num)
  have lev : ∀ q c : ℝ, 0 < q → 0 < c → ((ofPdf (logLogisticPdf a b)).real (Iic q) = 1 - 1 / (1 + c) ↔
      Real.log q = Real.log a + 1 / b * Real.log c) := by
    intro q c hq hc
    have hp : 0 < (q / a) ^ b := by positivity
    rw [cdf_logLogistic ha hb hq, sub_right_inj, one_div, one_div, inv_inj, add_right_inj,
      ← Real.log_injOn_pos.eq_iff (mem_Ioi.2 hp) (mem_Ioi.2 hc), Real.log_rpow (by positivity), log_ratio ha hq]
    constructor
    · intro h; rw [← h]; field_simp; ring
    · intro h; rw [h]; field_simp; ring
  unfold Quartiles
  rw [show (1 : ℝ) / 4 = 1 - 1 / (1 + 3⁻¹) by norm_num, show (1 : ℝ) / 2 = 1 - 1 / (1 + 1) by norm_num,
    show (3 : ℝ) / 4 = 1 - 1 / (1 + 3) by norm_num, lev _ _ h1 (by norm_num), lev _ _ h2' (by norm_num),
    lev _ _ h3' (by norm_num), Real.log_one, Real.log_inv, line_three (by linarith)]
  simp only [TwoFam.Shape, zero_sub, neg_neg, sub_zero, mul_zero, sub_neg_eq_add, zero_add]
  rw [mul_left_inj' l3.ne', geometric_mean h1 h2' h3', log_ratio h2' h3']
  refine and_congr_right fun h => ?_
  rw [← (geometric_mean h1 h2' h3').2 h, Real.log_injOn_pos.eq_iff (mem_Ioi.2 ha) (mem_Ioi.2 h2')]
  have hd : 0 < Real.log q3 - Real.log q2 := sub_pos.2 (Real.log_lt_log h2' h3)
  refine and_congr_left fun _ => ?_
  rw [div_eq_div_iff hb.ne' l3.ne', eq_div_iff hd.ne', one_mul, mul_comm, eq_comm]

private theorem weibull_shape {a b : ℝ} (ha : 0 < a) (hb : 0 < b) {q1 q2 q3 : ℝ} (h1 : 0 < q1) (h2 : q1 < q2)
    (h3 : q2 < q3) :
    Quartiles (weibullPdf a b) q1 q2 q3 ↔ TwoFam.weibull.Shape q1 q2 q3 ∧
      a = Real.log 2 / Real.log (q3 / q2) ∧ b = q2 / Real.log 2 ^ (Real.log (q3 / q2) / Real.log 2) := by
  have h2' : 0 < q2 := by linarith
  have h3' : 0 < q3 := by linarith
  have lev : ∀ q c : ℝ, 0 < q → 1 < c → ((ofPdf (weibullPdf a b)).real (Iic q) = 1 - c⁻¹ ↔
      -Real.log q = -Real.log b + 1 / a * -Real.log (Real.log c)) := by
    intro q c hq hc
    have hc0 : 0 < c := by linarith
    have hp : 0 < (q / b) ^ a := by positivity
    have hl : 0 < Real.log c := Real.log_pos hc
    rw [cdf_weibull ha hb hq, sub_right_inj, ← Real.exp_log (inv_pos.2 hc0), Real.exp_eq_exp, Real.log_inv, neg_inj,
      ← Real.log_injOn_pos.eq_iff (mem_Ioi.2 hp) (mem_Ioi.2 hl), Real.log_rpow (by positivity), log_ratio hb hq]
    constructor
    · intro h; rw [← h]; field_simp; ring
    · intro h
      have : Real.log q = Real.log b + 1 / a * Real.log (Real.log c) := by linarith
      rw [this]; field_simp; ring
  have l4 : Real.log (Real.log 4) = Real.log 2 + Real.log (Real.log 2) := by
    rw [log4, Real.log_mul two_ne_zero log2.ne']
  unfold Quartiles
  rw [show (1 : ℝ) / 4 = 1 - (4 / 3)⁻¹ by norm_num, show (1 : ℝ) / 2 = 1 - 2⁻¹ by norm_num,
    show (3 : ℝ) / 4 = 1 - 4⁻¹ by norm_num, lev _ _ h1 (by norm_num), lev _ _ h2' (by norm_num),
    lev _ _ h3' (by norm_num), rev3, line_three (by rw [l4]; linarith [log2])]
  have e1 : -Real.log (Real.log 2) - -Real.log (Real.log 4) = Real.log 2 := by rw [l4]; ring
  have e2 : -Real.log (Real.log (4 / 3)) - -Real.log (Real.log 2) = Real.log (Real.log 2 / Real.log (4 / 3)) := by
    rw [Real.log_div log2.ne' log43.ne']; ring
  have hd : 0 < Real.log q3 - Real.log q2 := sub_pos.2 (Real.log_lt_log h2' h3)
  rw [e1, e2]
  simp only [TwoFam.Shape]
  rw [log_ratio h2' h3', log_ratio h1 h2', show -Real.log q1 - -Real.log q2 = Real.log q2 - Real.log q1 by ring,
    show -Real.log q2 - -Real.log q3 = Real.log q3 - Real.log q2 by ring]
  refine and_congr_right fun _ => ?_
  have ea : 1 / a = (Real.log q3 - Real.log q2) / Real.log 2 ↔ a = Real.log 2 / (Real.log q3 - Real.log q2) := by
    rw [div_eq_div_iff ha.ne' log2.ne', eq_div_iff hd.ne', one_mul, mul_comm, eq_comm]
  rw [← ea]
  refine and_congr_right fun h => ?_
  have hp : 0 < Real.log 2 ^ ((Real.log q3 - Real.log q2) / Real.log 2) := Real.rpow_pos_of_pos log2 _
  rw [← Real.log_injOn_pos.eq_iff (mem_Ioi.2 hb) (mem_Ioi.2 (by positivity : 0 < q2 / _)), log_ratio hp h2',
    Real.log_rpow log2, ← h]
  constructor <;> intro h <;> linarith

private theorem pareto_shape {a m : ℝ} (ha : 0 < a) (hm : 0 < m) {q1 q2 q3 : ℝ} (h1 : 0 < q1) (h2 : q1 < q2)
    (h3 : q2 < q3) :
    Quartiles (paretoPdf a m) q1 q2 q3 ↔ TwoFam.pareto.Shape q1 q2 q3 ∧
      a = Real.log 2 / Real.log (q3 / q2) ∧ m = q2 ^ 2 / q3 := by
  have h2' : 0 < q2 := by linarith
  have h3' : 0 < q3 := by linarith
  have lev : ∀ q c : ℝ, 0 < q → 1 < c → ((ofPdf (paretoPdf a m)).real (Iic q) = 1 - c⁻¹ ↔
      Real.log q = Real.log m + 1 / a * Real.log c) := by
    intro q c hq hc
    have hc0 : 0 < c := by linarith
    have hl : 0 < Real.log c := Real.log_pos hc
    have hp : 0 < (m / q) ^ a := by positivity
    rw [cdf_pareto ha hm]
    split_ifs with hmq
    · rw [sub_right_inj, ← Real.log_injOn_pos.eq_iff (mem_Ioi.2 hp) (mem_Ioi.2 (inv_pos.2 hc0)), Real.log_inv,
        Real.log_rpow (by positivity), log_ratio hq hm]
      constructor
      · intro h
        have : Real.log c = a * (Real.log q - Real.log m) := by linarith
        rw [this]; field_simp; ring
      · intro h; rw [h]; field_simp; ring
    · have i1 : c⁻¹ < 1 := inv_lt_one_of_one_lt₀ hc
      have i2 := Real.log_lt_log hq (not_le.1 hmq)
      have i3 : 0 < 1 / a * Real.log c := by positivity
      constructor <;> intro h <;> linarith
  have l32 : 0 < Real.log (3 / 2) := Real.log_pos (by norm_num)
  have e1 : Real.log 2 - Real.log (4 / 3) = Real.log (3 / 2) := by
    rw [← Real.log_div (by norm_num) (by norm_num)]; norm_num
  have e2 : Real.log 4 - Real.log 2 = Real.log 2 := by rw [log4]; ring
  have hd : 0 < Real.log q3 - Real.log q2 := sub_pos.2 (Real.log_lt_log h2' h3)
  unfold Quartiles
  rw [show (1 : ℝ) / 4 = 1 - (4 / 3)⁻¹ by norm_num, show (1 : ℝ) / 2 = 1 - 2⁻¹ by norm_num,
    show (3 : ℝ) / 4 = 1 - 4⁻¹ by norm_num, lev _ _ h1 (by norm_num), lev _ _ h2' (by norm_num),
    lev _ _ h3' (by norm_num), line_three (by linarith), e1, e2]
  simp only [TwoFam.Shape]
  rw [log_ratio h2' h3', log_ratio h1 h2', eq_comm]
  refine and_congr_right fun hs => ?_
  have e3 : (Real.log q2 - Real.log q1) / Real.log (3 / 2) = (Real.log q3 - Real.log q2) / Real.log 2 := by
    rw [div_eq_div_iff l32.ne' log2.ne']; exact hs
  have ea : 1 / a = (Real.log q3 - Real.log q2) / Real.log 2 ↔ a = Real.log 2 / (Real.log q3 - Real.log q2) := by
    rw [div_eq_div_iff ha.ne' log2.ne', eq_div_iff hd.ne', one_mul, mul_comm, eq_comm]
  rw [e3, ← ea]
  refine and_congr_right fun h => ?_
  rw [h, div_mul_cancel₀ _ log2.ne',
    ← Real.log_injOn_pos.eq_iff (mem_Ioi.2 hm) (mem_Ioi.2 (by positivity : 0 < q2 ^ 2 / q3)),
    Real.log_div (by positivity) h3'.ne', Real.log_pow]
  push_cast
  constructor <;> intro h <;> linarith

/-- **C120**: three values are the quartiles of a distribution of the family exactly if they have the shape of the family, and
then of one only, whose parameters are written out. -/
theorem two_quartiles (F : TwoFam) : ∃ z, 0 < z ∧ (ofPdf (normalPdf 0 1)).real (Iic z) = 3 / 4 ∧
    ∀ q1 q2 q3, F.Dom q1 → q1 < q2 → q2 < q3 →
      (∀ a b, F.Good a b → (Quartiles (F.pdf a b) q1 q2 q3 ↔ F.Shape q1 q2 q3 ∧ (a, b) = F.fitted z q1 q2 q3)) ∧
      (F.Shape q1 q2 q3 → F.Good (F.fitted z q1 q2 q3).1 (F.fitted z q1 q2 q3).2) := by
  have hg := LocScale.peak_fam .normal trivial
  obtain ⟨z, hz⟩ := LocScale.upTo_exists hg (p := 3 / 4) (by norm_num) (by norm_num)
  have z0 : 0 < z := by
    rw [← (LocScale.upTo_mono hg).lt_iff_lt, hz, LocScale.upTo_zero hg]; norm_num
  have hz' : (ofPdf (normalPdf 0 1)).real (Iic z) = 3 / 4 := by
    have := LocScale.cdf_moved hg 0 one_pos z
    rw [← LocScale.fam_moved .normal 0 one_pos] at this
    rw [← hz]
    simpa [PeakFam.pdf] using this
  refine ⟨z, z0, hz', fun q1 q2 q3 hd h2 h3 => ?_⟩
  have hlog : 0 < q1 → 0 < Real.log (q3 / q2) := fun h1 => Real.log_pos (by rw [lt_div_iff₀ (by linarith)]; linarith)
  cases F with
  | uniform =>
    refine ⟨fun a b h => ?_, fun _ => by simp only [TwoFam.fitted, TwoFam.Good]; linarith⟩
    simp only [TwoFam.pdf, TwoFam.fitted, Prod.mk.injEq]
    exact uniform_shape h q1 q2 q3
  | gumbel =>
    refine ⟨fun a b h => ?_, fun _ => div_pos (sub_pos.2 h2) log2⟩
    simp only [TwoFam.pdf, TwoFam.fitted, Prod.mk.injEq]
    rw [gumbel_shape a h q1 q2 q3, and_comm (a := b = _)]
  | logNormal =>
    refine ⟨fun a b h => ?_, fun _ => div_pos (hlog hd) z0⟩
    simp only [TwoFam.fitted, Prod.mk.injEq]
    rw [logNormal_shape z0 hz' a h hd h2 h3, and_comm (a := b = _)]
  | logLogistic =>
    refine ⟨fun a b h => ?_, fun _ => ⟨lt_trans hd h2, div_pos (Real.log_pos (by norm_num)) (hlog hd)⟩⟩
    simp only [TwoFam.pdf, TwoFam.fitted, Prod.mk.injEq]
    rw [logLogistic_shape h.1 h.2 hd h2 h3, and_comm (a := b = _)]
  | weibull =>
    refine ⟨fun a b h => ?_, fun _ => ⟨div_pos log2 (hlog hd), div_pos (lt_trans hd h2) (Real.rpow_pos_of_pos log2 _)⟩⟩
    simp only [TwoFam.pdf, TwoFam.fitted, Prod.mk.injEq]
    exact weibull_shape h.1 h.2 hd h2 h3
  | pareto =>
    have q0 : 0 < q2 := lt_trans hd h2
    refine ⟨fun a b h => ?_, fun _ => ⟨div_pos log2 (hlog hd), div_pos (pow_pos q0 2) (q0.trans h3)⟩⟩
    simp only [TwoFam.pdf, TwoFam.fitted, Prod.mk.injEq]
    exact pareto_shape h.1 h.2 hd h2 h3

/-- **C120**: the quartiles of a family can be met only if they have its shape. -/
theorem two_attained (F : TwoFam) (q1 q2 q3 : ℝ) (hd : F.Dom q1) (h2 : q1 < q2) (h3 : q2 < q3) :
    (∃ a b, F.Good a b ∧ Quartiles (F.pdf a b) q1 q2 q3) ↔ F.Shape q1 q2 q3 := by
  obtain ⟨z, -, -, hz⟩ := two_quartiles F
  obtain ⟨e1, e2⟩ := hz q1 q2 q3 hd h2 h3
  constructor
  · rintro ⟨a, b, h, hq⟩
    exact ((e1 a b h).1 hq).1
  · intro hs
    exact ⟨_, _, e2 hs, (e1 _ _ (e2 hs)).2 ⟨hs, rfl⟩⟩

/-! ### quartile -/

theorem two_filled (F : TwoFam) (o d : Obj) (ho : construct F.family (fun _ => none) = .ok o) (x : List ℝ)
    (kvs : List (String × ℝ)) (hk : Filled o.names o.attr x kvs) (hd : construct F.family (fun k => kvs.lookup k) = .ok d) :
    ∃ v w, x = [v, w] ∧ law F.family d = [some v, some w] := by
  obtain ⟨k1, k2, k3⟩ := hk
  have two : ∀ a c : String, kvs.map Prod.fst = [a, c] → ∃ v w, kvs = [(a, v), (c, w)] := by
    intro a c h
    match kvs, h with
    | [(a', v), (c', w)], h =>
      simp only [List.map_cons, List.map_nil, List.cons.injEq, and_true] at h
      obtain ⟨rfl, rfl⟩ := h
      exact ⟨v, w, rfl⟩
  cases F <;>
    simp [construct, TwoFam.family, parametrize, simpleParam, simpleFam, allNotNone, blank, Obj.setAll, Obj.set,
      Except.ok_bind', Except.pure_eq] at ho <;>
    subst ho <;> dsimp only at k1 k2 k3
  all_goals
    obtain ⟨v, w, rfl⟩ := two _ _ k1
    simp [Function.update] at k3
    simp [construct, TwoFam.family, parametrize, simpleParam, simpleFam, simpleUpdate, List.lookup, allNotNone, blank,
      Obj.setAll, Obj.set, Except.ok_bind', Except.pure_eq] at hd
    subst hd
    exact ⟨v, w, k3.symm, by simp [law, lawAttrs, TwoFam.family, Obj.setAll, Obj.set, Function.update]⟩

theorem two_free (F : TwoFam) (o : Obj) (ho : construct F.family (fun _ => none) = .ok o) :
    freeBounds o F.box = F.box := by
  cases F <;>
    simp [construct, TwoFam.family, parametrize, simpleParam, simpleFam, allNotNone, blank, Obj.setAll, Obj.set,
      Except.ok_bind', Except.pure_eq] at ho <;>
    subst ho <;>
    simp [freeBounds, getFixedParams, splitStep, Function.update, List.zipIdx, TwoFam.box]

/-- the admissible values: those the constructor documents, with `eps` for zero -/
theorem two_in (F : TwoFam) (v w : ℝ) (h : InBox F.box [v, w]) : F = .uniform ∨ F.Good v w := by
  have hep : (0 : ℝ) < eps := by unfold eps; positivity
  obtain ⟨-, h⟩ := h
  have h0 := (h 0 (by simp) (by cases F <;> simp [TwoFam.box])).1
  have h1 := (h 1 (by simp) (by cases F <;> simp [TwoFam.box])).1
  cases F <;> simp [TwoFam.box] at h0 h1 <;> simp only [TwoFam.Good, reduceCtorEq, false_or, true_or]
  · linarith
  · linarith
  all_goals exact ⟨by linarith, by linarith⟩

theorem two_choice (F : TwoFam) (o : Obj) (ho : construct F.family (fun _ => none) = .ok o) (v w : ℝ)
    (hin : InBox F.box [v, w]) :
    ∃ d, Choice F.family o (freeBounds o F.box) d ∧ law F.family d = [some v, some w] := by
  rw [two_free F o ho]
  have main : ∀ a c : String, a ≠ c → o.names = [a, c] → o.attr a = none → o.attr c = none →
      (∃ d, construct F.family (fun k => if k = a then some v else if k = c then some w else none) = .ok d ∧
        law F.family d = [some v, some w]) →
      ∃ d, Choice F.family o F.box d ∧ law F.family d = [some v, some w] := by
    rintro a c hac hn ha hc ⟨d, hd, hl⟩
    refine ⟨d, ⟨_, hd, ?_, ?_, ?_⟩, hl⟩
    · intro k
      rw [hn]
      simp only [List.mem_cons, List.not_mem_nil, or_false]
      split_ifs <;> simp_all
    · intro k hk v hv
      rw [hn] at hk
      simp only [List.mem_cons, List.not_mem_nil, or_false] at hk
      rcases hk with rfl | rfl <;> simp_all
    · rw [hn]
      simpa [ha, hc, hac.symm] using hin
  cases F <;>
    simp [construct, TwoFam.family, parametrize, simpleParam, simpleFam, allNotNone, blank, Obj.setAll, Obj.set,
      Except.ok_bind', Except.pure_eq] at ho <;>
    subst ho <;>
    refine main _ _ (by decide) rfl (by simp [Function.update]) (by simp [Function.update]) ⟨_, by
      simp [construct, TwoFam.family, parametrize, simpleParam, simpleFam, simpleUpdate, allNotNone]; rfl, by
      simp [law, lawAttrs, TwoFam.family, Obj.setAll, Obj.set, Function.update]⟩

/-- **C120**: quartile.  With an optimiser that finds the minimum: if the values asked for have the shape of the family and the
parameters written out are admissible, the distribution returned has these parameters (for Uniform: unless the search ends at
bounds in the wrong order, where nothing is documented).  If they do not have the shape, the distribution returned misses at
least one of them. -/
theorem quartile_two (F : TwoFam) (o o1 : Obj) (ho : construct F.family (fun _ => none) = .ok o)
    (cdf : List (Option ℝ) → ℝ → ℝ)
    (hcdf : ∀ v w, F.Good v w → ∀ x, cdf [some v, some w] x = (ofPdf (F.pdf v w)).real (Iic x))
    (q1 q2 q3 : ℝ) (h1 : F.Dom q1) (h2 : q1 < q2) (h3 : q2 < q3) (opt : Optimiser) (G : List ℝ → Except Err (List ℝ))
    (hG : IsObjective F.family o.names o.attr (fun l => [cdf l q1 - 1 / 4, cdf l q2 - 1 / 2, cdf l q3 - 3 / 4]) G)
    (hfind : Finds opt G (startAt o o1) (freeBounds o F.box)) :
    ∃ z, 0 < z ∧ (ofPdf (normalPdf 0 1)).real (Iic z) = 3 / 4 ∧
    Gives (optimizeQuartile opt F.family cdf q1 q2 q3 o.names F.box (getFixedParams o).1 (getFixedParams o).2 o1) fun r =>
      ∃ v w, law F.family r.2 = [some v, some w] ∧ (F = .uniform ∧ w ≤ v ∨ F.Good v w ∧
        (F.Shape q1 q2 q3 → InBox F.box [(F.fitted z q1 q2 q3).1, (F.fitted z q1 q2 q3).2] → (v, w) = F.fitted z q1 q2 q3) ∧
        (¬ F.Shape q1 q2 q3 → ¬ Quartiles (F.pdf v w) q1 q2 q3)) := by
  obtain ⟨z, z0, hz, hall⟩ := two_quartiles F
  obtain ⟨hiff, hgood⟩ := hall q1 q2 q3 h1 h2 h3
  refine ⟨z, z0, hz, ?_⟩
  have he : quartileResidual cdf q1 q2 q3 = fun l => [cdf l q1 - 1 / 4, cdf l q2 - 1 / 2, cdf l q3 - 3 / 4] := by
    funext l; unfold quartileResidual; norm_num
  have hsc : ScaledNames F.family o.names := by
    intro h; cases F <;> simp [TwoFam.family] at h
  obtain ⟨x, o', e1, e2, ⟨kvs, d, e3, e4, e5, -⟩, e6⟩ := fit_best opt F.family o o1 hsc F.box _ G hG hfind
  obtain ⟨v, w, rfl, e7⟩ := two_filled F o d ho x kvs e3 e4
  rw [two_free F o ho] at e2
  refine ⟨(_, o'), by unfold optimizeQuartile; rw [he]; exact e1, v, w, e5.trans e7, ?_⟩
  have hgd : F = .uniform ∧ w ≤ v ∨ F.Good v w := by
    rcases two_in F v w e2 with h | h
    · subst h
      rcases le_or_gt w v with h | h
      · exact .inl ⟨rfl, h⟩
      · exact .inr h
    · exact .inr h
  refine hgd.imp_right fun hg => ⟨hg, fun hs hin => ?_, fun hs hq => hs ((hiff v w hg).1 hq).1⟩
  obtain ⟨a, b, c⟩ := (hiff _ _ (hgood hs)).2 ⟨hs, rfl⟩
  obtain ⟨d', hd', hl'⟩ := two_choice F o ho _ _ hin
  obtain ⟨r, hr, r1, r2, r3⟩ := quartile_exact opt F.family cdf q1 q2 q3 o o1 hsc F.box G hG hfind d' hd'
    (by rw [hl', hcdf _ _ (hgood hs), a]) (by rw [hl', hcdf _ _ (hgood hs), b]) (by rw [hl', hcdf _ _ (hgood hs), c])
  have : r = ([v, w], o') := by
    unfold optimizeQuartile at hr
    rw [he, e1] at hr
    simpa using hr.symm
  subst this
  dsimp only at r1 r2 r3
  rw [e5, e7, hcdf _ _ hg] at r1 r2 r3
  exact ((hiff v w hg).1 ⟨r1, r2, r3⟩).2

/-! The hypotheses are met. -/

/-- quartiles of each shape: those of Uniform(0, 4), Gumbel(0, 1), of LogNormal and LogLogistic with median 2, of Weibull(1, 1)
and of Pareto(1, 1) -/
example : TwoFam.uniform.Shape 1 2 3 ∧
    TwoFam.gumbel.Shape (-Real.log (2 * Real.log 2)) (-Real.log (Real.log 2)) (-Real.log (Real.log (4 / 3))) ∧
    TwoFam.logNormal.Shape 1 2 4 ∧ TwoFam.logLogistic.Shape 1 2 4 ∧
    TwoFam.weibull.Shape (Real.log (4 / 3)) (Real.log 2) (2 * Real.log 2) ∧ TwoFam.pareto.Shape (4 / 3) 2 4 := by
  simp only [TwoFam.Shape]
  refine ⟨by norm_num, ?_, by norm_num, by norm_num, ?_, ?_⟩
  · rw [Real.log_mul two_ne_zero log2.ne', Real.log_div log2.ne' log43.ne']; ring
  · rw [mul_div_cancel_right₀ _ log2.ne']; ring
  · norm_num; ring

/-- quartiles that no distribution of the family has: the first example in the documentation of `quartile` (3, 6, 8), and
(1, 2, 4) for a Uniform -/
example : ¬ TwoFam.logNormal.Shape 3 6 8 ∧ ¬ TwoFam.logLogistic.Shape 3 6 8 ∧ ¬ TwoFam.uniform.Shape 1 2 4 := by
  simp only [TwoFam.Shape]; norm_num

/-- a LogLogistic elicited from the quartiles 1, 2 and 4: `alpha` is 2 and `beta` is `log 3 / log 2` -/
example : ∃ (o : Obj) (cdf : List (Option ℝ) → ℝ → ℝ) (opt : Optimiser) (G : List ℝ → Except Err (List ℝ)),
    construct (.simple .logLogistic) (fun _ => none) = .ok o ∧
    (∀ v w, TwoFam.logLogistic.Good v w → ∀ x, cdf [some v, some w] x = (ofPdf (logLogisticPdf v w)).real (Iic x)) ∧
    IsObjective (.simple .logLogistic) o.names o.attr (fun l => [cdf l 1 - 1 / 4, cdf l 2 - 1 / 2, cdf l 4 - 3 / 4]) G ∧
    Finds opt G (startAt o o) (freeBounds o TwoFam.logLogistic.box) ∧
    TwoFam.logLogistic.Shape 1 2 4 ∧
    InBox TwoFam.logLogistic.box [(TwoFam.logLogistic.fitted 1 1 2 4).1, (TwoFam.logLogistic.fitted 1 1 2 4).2] := by
  obtain ⟨o, ho⟩ : ∃ o, construct (.simple .logLogistic) (fun _ => none) = .ok o := ⟨_, rfl⟩
  have hbox := two_free .logLogistic o ho
  have hs : TwoFam.logLogistic.Shape 1 2 4 := by simp only [TwoFam.Shape]; norm_num
  have l3 : Real.log 2 < Real.log 3 := Real.log_lt_log (by norm_num) (by norm_num)
  set β := Real.log 3 / Real.log 2 with hβ
  have hb1 : 1 < β := by rw [hβ, lt_div_iff₀ log2, one_mul]; exact l3
  have he : eps < 1 := by unfold eps; norm_num
  have hin : InBox TwoFam.logLogistic.box [2, β] := by
    refine ⟨rfl, fun i hi _ => ?_⟩
    simp only [List.length_cons, List.length_nil] at hi
    interval_cases i <;> simp [TwoFam.box] <;> linarith
  obtain ⟨e1, e2, e3⟩ := (logLogistic_shape (a := 2) (b := β) two_pos (by linarith) (q1 := 1) (q2 := 2) (q3 := 4) one_pos
    (by norm_num) (by norm_num)).2 ⟨hs, by rw [hβ]; norm_num, rfl⟩
  set cdf : List (Option ℝ) → ℝ → ℝ := fun l x =>
    (ofPdf (logLogisticPdf ((l[0]?.join).getD 0) ((l[1]?.join).getD 0))).real (Iic x) with hcdf
  set res : List (Option ℝ) → List ℝ := fun l => [cdf l 1 - 1 / 4, cdf l 2 - 1 / 2, cdf l 4 - 3 / 4] with hres
  set G : List ℝ → Except Err (List ℝ) := fun x => if x.length = 2 then
    .ok (res (x.map some)) else .error .valueError with hG
  refine ⟨o, cdf, fun _ _ => .ok (.ask [1, 1] fun _ => .stop [2, β]), G, ho, fun v w _ x => rfl, ⟨?_, ?_⟩, ?_, hs, ?_⟩
  · intro cand kvs hk
    simp [construct, parametrize, simpleParam, simpleFam, allNotNone, blank, Obj.setAll, Obj.set] at ho
    subst ho
    obtain ⟨k1, k2, k3⟩ := hk
    match kvs, k1, k2, k3 with
    | [(a, m), (b, n)], k1, k2, k3 =>
      simp only [List.map_cons, List.map_nil, List.cons.injEq, and_true] at k1
      obtain ⟨rfl, rfl⟩ := k1
      simp [Function.update] at k3
      subst k3
      simp [hG, construct, parametrize, simpleParam, simpleFam, simpleUpdate, allNotNone, blank, Obj.setAll, Obj.set,
        List.lookup, Except.map, law, lawAttrs, Function.update, hres]
  · intro cand hc
    simp [construct, parametrize, simpleParam, simpleFam, allNotNone, blank, Obj.setAll, Obj.set] at ho
    subst ho
    simp [Function.update] at hc
    simp [hG, hc]
  · rw [hbox]
    have hzero : res [some 2, some β] = [0, 0, 0] := by
      simp only [hres, hcdf, List.getElem?_cons_zero, List.getElem?_cons_succ, Option.join_some, Option.getD_some]
      rw [e1, e2, e3]
      norm_num
    refine ⟨_, rfl, [2, β], [0, 0, 0], by simp [answer, hG], hin, ?_, ?_⟩
    · rw [← hzero]; simp [hG]
    · intro y _ r' _
      have : 0 ≤ cost r' := List.sum_nonneg (by
        intro a ha
        obtain ⟨b, -, rfl⟩ := List.mem_map.1 ha
        positivity)
      simpa [cost] using this
  · simp only [TwoFam.fitted]
    rw [show (4 : ℝ) / 2 = 2 by norm_num]
    exact hin

end Verif.Props
