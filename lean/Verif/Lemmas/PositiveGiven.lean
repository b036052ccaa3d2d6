import Verif.Spec.PositiveGiven
import Verif.Lemmas.LogScale
import Verif.Lemmas.ShiftGiven
import Verif.Lemmas.ParetoBest

/-!
# Lemmas for C135
-/

namespace Verif.PositiveGiven
open MeasureTheory Set Filter Topology Verif Verif.Spec Verif.Law Verif.LocScale Verif.Lemmas.MaxentHdi Verif.LogScale Verif.ShiftGiven

variable {g : ℝ → ℝ} {k : ℝ}

theorem hump_moved (hg : Humped g k) (m : ℝ) {s : ℝ} (hs : 0 < s) : Humped (moved g m s) (m + s * k) where
  cont := (hg.cont.comp (by fun_prop)).div_const _
  pos x := div_pos (hg.pos _) hs
  rises x y h hy := by
    unfold moved
    refine div_lt_div_of_pos_right (hg.rises _ _ (by gcongr) ?_) hs
    rw [div_le_iff₀ hs]; linarith
  falls x y hx h := by
    unfold moved
    refine div_lt_div_of_pos_right (hg.falls _ _ ?_ (by gcongr)) hs
    rw [le_div_iff₀ hs]; linarith
  int := ((show HI g 1 from ⟨hg.int, hg.one⟩).affine m hs).1.div_const s
  one := by
    unfold moved
    rw [integral_div, ((show HI g 1 from ⟨hg.int, hg.one⟩).affine m hs).2]
    field_simp
  ent := by
    have e : ∀ x, moved g m s x * Real.log (moved g m s x) =
        (g ((x - m) / s) * Real.log (g ((x - m) / s)) - Real.log s * g ((x - m) / s)) / s := by
      intro x
      unfold moved
      rw [Real.log_div (hg.pos _).ne' hs.ne']; ring
    simp only [e]
    have i1 := (show HI (fun x => g x * Real.log (g x)) _ from ⟨hg.ent, rfl⟩).affine m hs
    have i2 := (show HI g 1 from ⟨hg.int, hg.one⟩).affine m hs
    exact (i1.1.sub (i2.1.const_mul _)).div_const s

theorem hump_mirror (hg : Humped g k) : Humped (fun x => g (-x)) (-k) where
  cont := hg.cont.comp continuous_neg
  pos x := hg.pos _
  rises x y h hy := hg.falls _ _ (by linarith) (by linarith)
  falls x y hx h := hg.rises _ _ (by linarith) (by linarith)
  int := hg.int.comp_neg
  one := by rw [integral_neg_eq_self g, hg.one]
  ent := hg.ent.comp_neg

theorem first_moved {m₀ : ℝ} (hg : Humped g k) (h1 : HI (fun x => x * g x) m₀) (m : ℝ) {s : ℝ} (hs : 0 < s) :
    HI (fun x => x * moved g m s x) (m + s * m₀) := by
  have i1 := h1.affine m hs
  have i2 := (show HI g 1 from ⟨hg.int, hg.one⟩).affine m hs
  have := (i1.add (i2.cmul (m / s)))
  have e : m + s * m₀ = s * m₀ + m / s * (s * 1) := by field_simp; ring
  rw [e]
  refine this.congr fun x => ?_
  unfold moved
  field_simp
  ring

theorem first_mirror {m₀ : ℝ} (h1 : HI (fun x => x * g x) m₀) : HI (fun x => x * g (-x)) (-1 * m₀) := by
  refine (h1.neg.cmul (-1)).congr fun x => ?_
  ring

/-- the density of minus the logarithm of a standard Gamma -/
noncomputable def lg (a w : ℝ) : ℝ := 1 / Real.Gamma a * Real.exp (-(a * w)) * Real.exp (-Real.exp (-w))

theorem hump_lg {a : ℝ} (ha : 0 < a) : ∃ k, Humped (lg a) k := by
  have hG := Real.Gamma_pos_of_pos ha
  have haa := Real.rpow_pos_of_pos ha a
  have hr := ((logGammaRaw ha).affine (Real.log a) one_pos).congr
    (g := fun z => a ^ a / Real.Gamma a * Real.exp (-(a * (z + Real.exp (-z))))) (fun z => by
      rw [div_one, div_one, show Real.exp (-(z - Real.log a)) = a * Real.exp (-z) by
        rw [neg_sub, sub_eq_add_neg, Real.exp_add, Real.exp_log ha],
        show Real.exp (-(a * (z - Real.log a))) = a ^ a * Real.exp (-(a * z)) by
          rw [Real.rpow_def_of_pos ha, ← Real.exp_add]; congr 1; ring,
        show -(a * (z + Real.exp (-z))) = -(a * z) + -(a * Real.exp (-z)) by ring, Real.exp_add]
      ring)
  have hv := hump_valley (div_pos haa hG) ha hr
  refine ⟨-Real.log a + 1 * 0, ?_⟩
  · have := hump_moved hv (-Real.log a) one_pos
    convert this using 1
    funext w
    unfold moved lg
    rw [div_one, div_one, sub_neg_eq_add]
    beta_reduce
    rw [show Real.exp (-(w + Real.log a)) = Real.exp (-w) / a by
      rw [neg_add, Real.exp_add, Real.exp_neg (Real.log a), Real.exp_log ha]; rfl,
      show -(a * (w + Real.log a + Real.exp (-w) / a)) = -(a * w) + -Real.exp (-w) + -(Real.log a * a) by field_simp; ring,
      Real.exp_add, Real.exp_add, Real.exp_neg (Real.log a * a), ← Real.rpow_def_of_pos ha]
    field_simp

theorem first_lg {a : ℝ} (ha : 0 < a) : ∃ m, HI (fun x => x * lg a x) m := ⟨_, (logGammaRaw ha).first⟩

/-- the density of the logarithm of the standard distribution -/
noncomputable def logd : PosGiven → ℝ → ℝ
  | .weibullAlpha a => fun y => moved (lg 1) 0 (1 / a) (-y)
  | .gammaAlpha a => fun y => lg a (-y)
  | .inverseGammaAlpha a => lg a
  | .logNormalSigma s => normalPdf 0 s
  | .logLogisticBeta b => logisticPdf 0 (1 / b)
  | _ => fun _ => 0

theorem logd_hump (F : PosGiven) (hF : F.Ok) (hs : F.Stretches) : ∃ k, Humped (logd F) k := by
  cases F <;> simp only [PosGiven.Stretches] at hs <;> simp only [PosGiven.Ok] at hF
  case weibullAlpha a =>
    obtain ⟨k, hk⟩ := hump_lg one_pos
    exact ⟨_, hump_mirror (hump_moved hk 0 (one_div_pos.2 hF))⟩
  case gammaAlpha a =>
    obtain ⟨k, hk⟩ := hump_lg hF
    exact ⟨_, hump_mirror hk⟩
  case inverseGammaAlpha a => exact hump_lg hF
  case logNormalSigma s =>
    have := hump_moved (hump_peak (peak_fam .normal trivial)) 0 hF
    rw [← fam_moved .normal 0 hF] at this
    exact ⟨_, this⟩
  case logLogisticBeta b =>
    have := hump_moved (hump_peak (peak_fam .logistic trivial)) 0 (one_div_pos.2 hF)
    rw [← fam_moved .logistic 0 (one_div_pos.2 hF)] at this
    exact ⟨_, this⟩

theorem logd_first (F : PosGiven) (hF : F.Ok) (hs : F.Stretches) : ∃ m, HI (fun x => x * logd F x) m := by
  cases F <;> simp only [PosGiven.Stretches] at hs <;> simp only [PosGiven.Ok] at hF
  case weibullAlpha a =>
    obtain ⟨k, hk⟩ := hump_lg one_pos
    obtain ⟨m, hm⟩ := first_lg one_pos
    exact ⟨_, first_mirror (first_moved hk hm 0 (one_div_pos.2 hF))⟩
  case gammaAlpha a =>
    obtain ⟨m, hm⟩ := first_lg hF
    exact ⟨_, first_mirror hm⟩
  case inverseGammaAlpha a => exact first_lg hF
  case logNormalSigma s => exact ⟨_, log_mean .logNormal 0 hF⟩
  case logLogisticBeta b => exact ⟨_, log_mean .logLogistic 0 (one_div_pos.2 hF)⟩

theorem width_pos (F : PosGiven) (v : ℝ) (hv : F.Free v) : 0 < F.width v := by
  cases F <;> simp only [PosGiven.Free] at hv <;> simp only [PosGiven.width] <;> positivity

theorem stretch_exp (F : PosGiven) (hF : F.Ok) (hs : F.Stretches) (v : ℝ) (hv : F.Free v) :
    F.pdf v = expOf (moved (logd F) (Real.log (F.width v)) 1) := by
  funext x
  cases F <;> simp only [PosGiven.Stretches] at hs <;> simp only [PosGiven.Ok] at hF <;> simp only [PosGiven.Free] at hv <;>
    simp only [PosGiven.pdf, PosGiven.width, logd, expOf, moved, div_one]
  case weibullAlpha a =>
    unfold weibullPdf
    by_cases hx : 0 < x
    · rw [if_neg (not_le.2 hx), if_pos hx]
      have hxv : 0 < x / v := by positivity
      have e : (x / v) ^ a = Real.exp (a * (Real.log x - Real.log v)) := by
        rw [Real.rpow_def_of_pos hxv, Real.log_div hx.ne' hv.ne', mul_comm]
      rw [Real.rpow_sub_one hxv.ne', e]
      unfold lg
      rw [Real.Gamma_one, one_mul, show -((-(Real.log x - Real.log v) - 0) / (1 / a)) = a * (Real.log x - Real.log v) by
        field_simp; ring]
      field_simp
    · rw [if_pos (not_lt.1 hx), if_neg hx]
  case gammaAlpha a =>
    unfold gammaPdf
    split_ifs with hx
    · have e1 : Real.exp (-(a * -(Real.log x - Real.log (1 / v)))) = v ^ a * x ^ a := by
        rw [← Real.mul_rpow hv.le hx.le, Real.rpow_def_of_pos (by positivity), Real.log_mul hv.ne' hx.ne', one_div, Real.log_inv]
        congr 1; ring
      have e2 : Real.exp (- -(Real.log x - Real.log (1 / v))) = v * x := by
        rw [neg_neg, one_div, Real.log_inv, sub_neg_eq_add, Real.exp_add, Real.exp_log hx, Real.exp_log hv, mul_comm]
      unfold lg
      rw [e1, e2, Real.rpow_sub_one hx.ne']
      field_simp
    · rfl
  case inverseGammaAlpha a =>
    unfold inverseGammaPdf
    split_ifs with hx
    · have e1 : Real.exp (-(a * (Real.log x - Real.log v))) = v ^ a * x ^ (-a) := by
        rw [Real.rpow_def_of_pos hv, Real.rpow_def_of_pos hx, ← Real.exp_add]
        congr 1; ring
      have e2 : Real.exp (-(Real.log x - Real.log v)) = v / x := by
        rw [neg_sub, Real.exp_sub, Real.exp_log hx, Real.exp_log hv]
      unfold lg
      rw [e1, e2, Real.rpow_sub_one hx.ne', neg_div]
      field_simp
    · rfl
  case logNormalSigma s =>
    have h := congrFun (pdf_expOf .logNormal v hF) x
    simp only [LogFam.pdf, expOf, logOf, PeakFam.pdf] at h
    rw [h]
    split_ifs with hx
    · rw [Real.log_exp]
      unfold normalPdf
      rw [sub_zero]
    · rfl
  case logLogisticBeta b =>
    have h := congrFun (pdf_expOf .logLogistic (Real.log v) (one_div_pos.2 hF)) x
    simp only [LogFam.pdf, expOf, logOf, PeakFam.pdf, Real.exp_log hv, one_div_one_div] at h
    rw [h]
    split_ifs with hx
    · unfold logisticPdf
      rw [sub_zero]
    · rfl

theorem stretch_mass (F : PosGiven) (hF : F.Ok) (hs : F.Stretches) (v : ℝ) (hv : F.Free v) {l u : ℝ} (hl : 0 < l) (h : l ≤ u) :
    massOf (F.pdf v) l u =
      area (logd F) (Real.log l - Real.log (F.width v)) (Real.log u - Real.log (F.width v)) := by
  obtain ⟨k, hg⟩ := logd_hump F hF hs
  have hm := hump_moved hg (Real.log (F.width v)) one_pos
  rw [stretch_exp F hF hs v hv, expOf_mass hm.cont.measurable (fun x => (hm.pos x).le) hm.int hl h,
    hump_mass hg _ one_pos (Real.log_le_log hl h), div_one, div_one]

theorem stretch_mass_zero (F : PosGiven) (hF : F.Ok) (hs : F.Stretches) (v : ℝ) (hv : F.Free v) {u : ℝ} (hu : 0 < u) :
    massOf (F.pdf v) 0 u = upTo (logd F) (Real.log u - Real.log (F.width v)) := by
  obtain ⟨k, hg⟩ := logd_hump F hF hs
  have hm := hump_moved hg (Real.log (F.width v)) one_pos
  rw [stretch_exp F hF hs v hv, expOf_mass_zero hm.cont.measurable (fun x => (hm.pos x).le) hm.int hu,
    Verif.Lemmas.MatchLine.cdf_hump hg _ one_pos, div_one]

theorem stretch_ent (F : PosGiven) (hF : F.Ok) (hs : F.Stretches) :
    ∃ c, ∀ v, F.Free v → entropyOf (F.pdf v) = Real.log (F.width v) + c := by
  obtain ⟨k, hg⟩ := logd_hump F hF hs
  obtain ⟨m, h1⟩ := logd_first F hF hs
  refine ⟨m + entropyOf (logd F), fun v hv => ?_⟩
  have hm := hump_moved hg (Real.log (F.width v)) one_pos
  rw [stretch_exp F hF hs v hv, expOf_entropy hm.pos hm.ent (first_moved hg h1 _ one_pos), hump_entropy hg _ one_pos, Real.log_one]
  ring

/-- the parameter with a given width -/
theorem width_inj (F : PosGiven) (v v' : ℝ) (hv : F.Free v) (hv' : F.Free v') (h : F.width v = F.width v') : v = v' := by
  cases F <;> simp only [PosGiven.Free] at hv hv' <;> simp only [PosGiven.width] at h <;> try exact h
  · rw [one_div, one_div] at h; exact inv_injective h
  · exact Real.exp_injective h
  · rw [one_div, one_div] at h; exact inv_injective h
  · rw [one_div, one_div] at h; exact inv_injective h

theorem width_surj (F : PosGiven) {w : ℝ} (hw : 0 < w) : ∃ v, F.Free v ∧ F.width v = w := by
  cases F <;> simp only [PosGiven.Free, PosGiven.width]
  case gammaAlpha => exact ⟨1 / w, by positivity, one_div_one_div w⟩
  case logNormalSigma => exact ⟨Real.log w, trivial, Real.exp_log hw⟩
  case logLogisticAlpha => exact ⟨1 / w, by positivity, one_div_one_div w⟩
  case paretoM => exact ⟨1 / w, by positivity, one_div_one_div w⟩
  all_goals exact ⟨w, hw, rfl⟩

/-- the wider the larger the entropy -/
theorem width_ent (F : PosGiven) (hF : F.Ok) (v v' : ℝ) (hv : F.Free v) (hv' : F.Free v') :
    entropyOf (F.pdf v) < entropyOf (F.pdf v') ↔ F.width v < F.width v' := by
  by_cases hs : F.Stretches
  · obtain ⟨c, hc⟩ := stretch_ent F hF hs
    rw [hc v hv, hc v' hv', add_lt_add_iff_right, Real.log_lt_log_iff (width_pos F v hv) (width_pos F v' hv')]
  · cases F <;> simp only [PosGiven.Stretches, not_true] at hs <;> simp only [PosGiven.Ok] at hF <;>
      simp only [PosGiven.Free] at hv hv' <;> simp only [PosGiven.pdf, PosGiven.width]
    case logNormalMu m =>
      have e1 := log_entropy .logNormal m hv
      have e2 := log_entropy .logNormal m hv'
      simp only [LogFam.pdf] at e1 e2
      rw [e1, e2, add_lt_add_iff_right, add_lt_add_iff_left, Real.log_lt_log_iff hv hv']
    case logLogisticAlpha a =>
      have e1 := log_entropy .logLogistic (Real.log a) (one_div_pos.2 hv)
      have e2 := log_entropy .logLogistic (Real.log a) (one_div_pos.2 hv')
      simp only [LogFam.pdf, Real.exp_log hF, one_div_one_div] at e1 e2
      rw [e1, e2, add_lt_add_iff_right, add_lt_add_iff_left, Real.log_lt_log_iff (one_div_pos.2 hv) (one_div_pos.2 hv')]
    case paretoAlpha a =>
      rw [Verif.Lemmas.ParetoBest.entropy hF hv, Verif.Lemmas.ParetoBest.entropy hF hv']
      have := Real.log_lt_log_iff hv hv'
      constructor
      · intro h; exact this.1 (by linarith)
      · intro h; linarith [this.2 h]
    case paretoM m =>
      rw [Verif.Lemmas.ParetoBest.entropy hv hF, Verif.Lemmas.ParetoBest.entropy hv' hF]
      have key : ∀ a b : ℝ, 0 < a → 0 < b → 1 / a < 1 / b →
          Real.log m - Real.log a + 1 / a + 1 < Real.log m - Real.log b + 1 / b + 1 := by
        intro a b ha hb h
        have := Real.log_lt_log hb ((one_div_lt_one_div ha hb).1 h)
        linarith
      constructor
      · intro h
        by_contra hc
        rcases (not_lt.1 hc).lt_or_eq with h' | h'
        · linarith [key v' v hv' hv h']
        · rw [one_div, one_div] at h'
          rw [inv_injective h'] at h
          exact lt_irrefl _ h
      · exact key v v' hv hv'

end Verif.PositiveGiven
