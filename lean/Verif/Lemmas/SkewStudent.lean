import Verif.Spec.SkewLaw
import Verif.Spec.MaxentHdi
import Verif.Lemmas.LawBase
import Verif.Lemmas.BetaMoments
import Mathlib.Analysis.SpecialFunctions.Gamma.Beta

/-!
# SkewStudentT by its documented density
-/

namespace Verif.SkewStudent
open MeasureTheory Set Filter Topology ProbabilityTheory Verif.Spec Verif.Law

variable {n : ℝ}

noncomputable def bend (n z : ℝ) : ℝ := z / √(n + z ^ 2)

theorem root_pos (hn : 0 < n) (z : ℝ) : 0 < √(n + z ^ 2) := by positivity

theorem bend_sq (hn : 0 < n) (z : ℝ) : 1 - bend n z ^ 2 = n / (n + z ^ 2) := by
  have : 0 < n + z ^ 2 := by positivity
  unfold bend
  rw [div_pow, Real.sq_sqrt this.le]
  field_simp
  ring

theorem bend_lt (hn : 0 < n) (z : ℝ) : 0 < 1 + bend n z ∧ 0 < 1 - bend n z := by
  have h : 0 < 1 - bend n z ^ 2 := by rw [bend_sq hn]; positivity
  have h2 : |bend n z| < 1 := by rw [← sq_lt_one_iff_abs_lt_one]; linarith
  rw [abs_lt] at h2
  constructor <;> linarith [h2.1, h2.2]

theorem bend_neg (n z : ℝ) : bend n (-z) = -bend n z := by unfold bend; rw [neg_sq, neg_div]

theorem bend_deriv (hn : 0 < n) (z : ℝ) : HasDerivAt (bend n) (n / ((n + z ^ 2) * √(n + z ^ 2))) z := by
  have h0 : 0 < n + z ^ 2 := by positivity
  have h1 : HasDerivAt (fun z : ℝ => √(n + z ^ 2)) (z / √(n + z ^ 2)) z := by
    have := ((hasDerivAt_pow 2 z).const_add n).sqrt h0.ne'
    refine this.congr_deriv ?_
    simp
    field_simp
  refine ((hasDerivAt_id z).div h1 (root_pos hn z).ne').congr_deriv ?_
  have hs := Real.sq_sqrt h0.le
  have hr := root_pos hn z
  rw [hs]
  simp only [id]
  field_simp
  nlinarith

theorem bend_cont (hn : 0 < n) : Continuous (bend n) :=
  continuous_iff_continuousAt.2 fun z => (bend_deriv hn z).continuousAt

theorem bend_mono (hn : 0 < n) : StrictMono (bend n) :=
  strictMono_of_hasDerivAt_pos (bend_deriv hn) fun z => by positivity

theorem bend_onto (hn : 0 < n) {v : ℝ} (h1 : -1 < v) (h2 : v < 1) : ∃ z, bend n z = v := by
  have h : 0 < 1 - v ^ 2 := by nlinarith
  refine ⟨√n * v / √(1 - v ^ 2), ?_⟩
  have hr := Real.sqrt_pos.2 h
  have e : n + (√n * v / √(1 - v ^ 2)) ^ 2 = n / (1 - v ^ 2) := by
    rw [div_pow, mul_pow, Real.sq_sqrt hn.le, Real.sq_sqrt h.le]
    field_simp
    ring
  unfold bend
  rw [e, Real.sqrt_div hn.le]
  have := Real.sqrt_pos.2 hn
  field_simp

/-- the density without its constant -/
noncomputable def hill (n A B z : ℝ) : ℝ := (1 + bend n z) ^ A * (1 - bend n z) ^ B

theorem hill_pos (hn : 0 < n) (A B z : ℝ) : 0 < hill n A B z :=
  mul_pos (Real.rpow_pos_of_pos (bend_lt hn z).1 _) (Real.rpow_pos_of_pos (bend_lt hn z).2 _)

theorem hill_cont (hn : 0 < n) (A B : ℝ) : Continuous (hill n A B) :=
  ((continuous_const.add (bend_cont hn)).rpow_const fun z => .inl (bend_lt hn z).1.ne').mul
    ((continuous_const.sub (bend_cont hn)).rpow_const fun z => .inl (bend_lt hn z).2.ne')

theorem hill_total (hn : 0 < n) {a b : ℝ} (ha : 0 < a) (hb : 0 < b) :
    HI (hill n (a + 1 / 2) (b + 1 / 2)) (2 ^ (a + b - 1) * beta a b * √n) := by
  have hd : ∀ z ∈ (univ : Set ℝ), HasDerivWithinAt (fun z => (1 + bend n z) / 2) (n / ((n + z ^ 2) * √(n + z ^ 2)) / 2) univ z :=
    fun z _ => (((bend_deriv hn z).const_add 1).div_const 2).hasDerivWithinAt
  have hi : InjOn (fun z => (1 + bend n z) / 2) univ := by
    intro x _ y _ h
    exact (bend_mono hn).injective (by simp only at h; linarith)
  have e : (fun z => (1 + bend n z) / 2) '' univ = Ioo 0 1 := by
    ext t
    constructor
    · rintro ⟨z, -, rfl⟩
      obtain ⟨p, q⟩ := bend_lt hn z
      constructor <;> simp only <;> linarith
    · rintro ⟨p, q⟩
      obtain ⟨z, hz⟩ := bend_onto hn (v := 2 * t - 1) (by linarith) (by linarith)
      exact ⟨z, trivial, by simp only; rw [hz]; ring⟩
  have hone : HI (betaPDFReal a b) 1 := by
    refine ⟨?_, BetaMoments.integral_pdf a b ha hb⟩
    by_contra h
    have := BetaMoments.integral_pdf a b ha hb
    rw [integral_undef h] at this
    exact zero_ne_one this
  have h1 := integrableOn_image_iff_integrableOn_abs_deriv_smul MeasurableSet.univ hd hi (betaPDFReal a b)
  have h2 := integral_image_eq_integral_abs_deriv_smul MeasurableSet.univ hd hi (betaPDFReal a b)
  have hpos : ∀ z, 0 < n / ((n + z ^ 2) * √(n + z ^ 2)) / 2 := fun z => by positivity
  rw [e] at h1 h2
  simp only [abs_of_pos (hpos _), smul_eq_mul, integrableOn_univ, Measure.restrict_univ] at h1 h2
  rw [setIntegral_eq_integral_of_forall_compl_eq_zero (fun x hx => by
    unfold betaPDFReal; rw [if_neg]; exact hx)] at h2
  have H : HI (fun z => n / ((n + z ^ 2) * √(n + z ^ 2)) / 2 * betaPDFReal a b ((1 + bend n z) / 2)) 1 :=
    ⟨h1.1 hone.1.integrableOn, by rw [← h2, hone.2]⟩
  have hB := beta_pos ha hb
  refine (H.cmul (2 ^ (a + b - 1) * beta a b * √n)).congr (fun z => ?_) |>.val (mul_one _)
  obtain ⟨p, q⟩ := bend_lt hn z
  unfold betaPDFReal hill
  rw [if_pos ⟨by linarith, by linarith⟩]
  have e1 : 1 - (1 + bend n z) / 2 = (1 - bend n z) / 2 := by ring
  rw [e1, Real.div_rpow p.le two_pos.le, Real.div_rpow q.le two_pos.le]
  have e2 : (1 + bend n z) ^ (a + 1 / 2) = (1 + bend n z) ^ (a - 1) * ((1 + bend n z) * √(1 + bend n z)) := by
    rw [Real.sqrt_eq_rpow, show a + 1 / 2 = (a - 1) + (1 + 1 / 2) by ring, Real.rpow_add p, Real.rpow_add p, Real.rpow_one]
  have e3 : (1 - bend n z) ^ (b + 1 / 2) = (1 - bend n z) ^ (b - 1) * ((1 - bend n z) * √(1 - bend n z)) := by
    rw [Real.sqrt_eq_rpow, show b + 1 / 2 = (b - 1) + (1 + 1 / 2) by ring, Real.rpow_add q, Real.rpow_add q, Real.rpow_one]
  have e4 : (2 : ℝ) ^ (a + b - 1) = 2 ^ (a - 1) * 2 ^ (b - 1) * 2 := by
    rw [show a + b - 1 = (a - 1) + (b - 1) + 1 by ring, Real.rpow_add two_pos, Real.rpow_add two_pos, Real.rpow_one]
  have h0 : 0 < n + z ^ 2 := by positivity
  have e5 : (1 + bend n z) * (1 - bend n z) = n / (n + z ^ 2) := by rw [← bend_sq hn]; ring
  have e6 : √(1 + bend n z) * √(1 - bend n z) = √n / √(n + z ^ 2) := by
    rw [← Real.sqrt_mul p.le, e5, Real.sqrt_div hn.le]
  have e7 : (1 + bend n z) * √(1 + bend n z) * ((1 - bend n z) * √(1 - bend n z)) = n / (n + z ^ 2) * (√n / √(n + z ^ 2)) := by
    rw [← e5, ← e6]; ring
  have hr := root_pos hn z
  have p1 := Real.rpow_pos_of_pos p (a - 1)
  have p2 := Real.rpow_pos_of_pos q (b - 1)
  have p3 := Real.rpow_pos_of_pos two_pos (a - 1)
  have p4 := Real.rpow_pos_of_pos two_pos (b - 1)
  calc 2 ^ (a + b - 1) * beta a b * √n * (n / ((n + z ^ 2) * √(n + z ^ 2)) / 2 *
        (1 / beta a b * ((1 + bend n z) ^ (a - 1) / 2 ^ (a - 1)) * ((1 - bend n z) ^ (b - 1) / 2 ^ (b - 1))))
      = (1 + bend n z) ^ (a - 1) * (1 - bend n z) ^ (b - 1) * (n / (n + z ^ 2) * (√n / √(n + z ^ 2))) := by
        rw [e4]; field_simp
    _ = _ := by rw [← e7, e2, e3]; ring

/-- multiplying by `z` moves half a unit from one exponent to the other -/
theorem hill_mul (hn : 0 < n) (A B z : ℝ) :
    z * hill n A B z = √n / 2 * (hill n (A + 1 / 2) (B - 1 / 2) z - hill n (A - 1 / 2) (B + 1 / 2) z) := by
  obtain ⟨p, q⟩ := bend_lt hn z
  have sp := Real.sqrt_pos.2 p
  have sq' := Real.sqrt_pos.2 q
  have hr := root_pos hn z
  have h0 : 0 < n + z ^ 2 := by positivity
  unfold hill
  rw [Real.rpow_add p, Real.rpow_sub p, Real.rpow_add q, Real.rpow_sub q, ← Real.sqrt_eq_rpow, ← Real.sqrt_eq_rpow]
  have e5 : (1 + bend n z) * (1 - bend n z) = n / (n + z ^ 2) := by rw [← bend_sq hn]; ring
  have e6 : √(1 + bend n z) * √(1 - bend n z) = √n / √(n + z ^ 2) := by
    rw [← Real.sqrt_mul p.le, e5, Real.sqrt_div hn.le]
  have e7 : z * (√(1 + bend n z) * √(1 - bend n z)) = √n * bend n z := by
    rw [e6]; unfold bend; ring
  have s1 := Real.mul_self_sqrt p.le
  have s2 := Real.mul_self_sqrt q.le
  have hz : z = √n * bend n z / (√(1 + bend n z) * √(1 - bend n z)) := by
    rw [eq_div_iff (by positivity)]; exact e7
  set P := √(1 + bend n z)
  set Q := √(1 - bend n z)
  set X := (1 + bend n z) ^ A
  set Y := (1 - bend n z) ^ B
  rw [hz]
  field_simp
  rw [sq, sq, s1, s2]
  ring

theorem hill_mirror (n A B z : ℝ) : hill n A B (-z) = hill n B A z := by
  unfold hill
  rw [bend_neg]
  rw [mul_comm, sub_neg_eq_add, ← sub_eq_add_neg]

/-- the density rises up to a mode and falls after it -/
theorem hill_mode (hn : 0 < n) {A B : ℝ} (hA : 0 < A) (hB : 0 < B) :
    ∃ c, (∀ x y, x < y → y ≤ c → hill n A B x < hill n A B y) ∧ ∀ x y, c ≤ x → x < y → hill n A B y < hill n A B x := by
  set w0 := (A - B) / (A + B) with hw
  have hs : 0 < A + B := by positivity
  have l1 : -1 < w0 := by rw [hw, lt_div_iff₀ hs]; linarith
  have l2 : w0 < 1 := by rw [hw, div_lt_iff₀ hs]; linarith
  set f : ℝ → ℝ := fun v => A * Real.log (1 + v) + B * Real.log (1 - v) with hf
  have hd : ∀ v, -1 < v → v < 1 → HasDerivAt f (A / (1 + v) - B / (1 - v)) v := by
    intro v h1 h2
    have a1 := (((hasDerivAt_id v).const_add 1).log (by simp only [id]; linarith : (1 + id v) ≠ 0)).const_mul A
    have a2 := (((hasDerivAt_id v).const_sub 1).log (by simp only [id]; linarith : (1 - id v) ≠ 0)).const_mul B
    refine (a1.add a2).congr_deriv ?_
    simp only [id]
    ring
  have hfc : ContinuousOn f (Ioo (-1) 1) := fun v hv => (hd v hv.1 hv.2).continuousAt.continuousWithinAt
  have hsign : ∀ v, -1 < v → v < 1 → A / (1 + v) - B / (1 - v) = (A + B) * (w0 - v) / ((1 + v) * (1 - v)) := by
    intro v h1 h2
    have : 1 + v ≠ 0 := by linarith
    have : 1 - v ≠ 0 := by linarith
    rw [hw]
    field_simp
    ring
  have up : StrictMonoOn f (Ioc (-1) w0) := by
    refine strictMonoOn_of_deriv_pos (convex_Ioc _ _) (hfc.mono fun v hv => ⟨hv.1, hv.2.trans_lt l2⟩) fun v hv => ?_
    rw [interior_Ioc] at hv
    have h2 := hv.2.trans l2
    rw [(hd v hv.1 h2).deriv, hsign v hv.1 h2]
    have : 0 < 1 + v := by linarith [hv.1]
    have : 0 < 1 - v := by linarith
    have : 0 < w0 - v := by linarith [hv.2]
    positivity
  have down : StrictAntiOn f (Ico w0 1) := by
    refine strictAntiOn_of_deriv_neg (convex_Ico _ _) (hfc.mono fun v hv => ⟨l1.trans_le hv.1, hv.2⟩) fun v hv => ?_
    rw [interior_Ico] at hv
    have h1 := l1.trans hv.1
    rw [(hd v h1 hv.2).deriv, hsign v h1 hv.2]
    have : 0 < 1 + v := by linarith
    have : 0 < 1 - v := by linarith [hv.2]
    exact div_neg_of_neg_of_pos (mul_neg_of_pos_of_neg hs (by linarith [hv.1])) (by positivity)
  have he : ∀ z, hill n A B z = Real.exp (f (bend n z)) := by
    intro z
    obtain ⟨p, q⟩ := bend_lt hn z
    unfold hill
    rw [Real.rpow_def_of_pos p, Real.rpow_def_of_pos q, ← Real.exp_add]
    congr 1
    simp only [hf]
    ring
  obtain ⟨c, hc⟩ := bend_onto hn l1 l2
  have hm := bend_mono hn
  refine ⟨c, fun x y hxy hy => ?_, fun x y hx hxy => ?_⟩
  · rw [he, he, Real.exp_lt_exp]
    have b1 := (bend_lt hn x).1
    have b2 := (bend_lt hn y).1
    have m2 : bend n y ≤ w0 := hc ▸ hm.monotone hy
    exact up ⟨by linarith, ((hm hxy).le.trans m2)⟩ ⟨by linarith, m2⟩ (hm hxy)
  · rw [he, he, Real.exp_lt_exp]
    have b1 := (bend_lt hn x).2
    have b2 := (bend_lt hn y).2
    have m1 : w0 ≤ bend n x := hc ▸ hm.monotone hx
    exact down ⟨m1, by linarith⟩ ⟨m1.trans (hm hxy).le, by linarith⟩ (hm hxy)

theorem hill_int (hn : 0 < n) {A B : ℝ} (hA : 1 / 2 < A) (hB : 1 / 2 < B) : Integrable (hill n A B) := by
  have := (hill_total hn (a := A - 1 / 2) (b := B - 1 / 2) (by linarith) (by linarith)).1
  simpa using this

theorem hill_ent (hn : 0 < n) {A B : ℝ} (hA : 1 / 2 < A) (hB : 1 / 2 < B) :
    Integrable fun z => hill n A B z * Real.log (hill n A B z) := by
  set k := min A B with hk
  have hk2 : 1 / 2 < k := lt_min hA hB
  have k0 : 0 < k := by linarith
  set r := (1 / 2 + k) / (2 * k) with hr
  have r1 : r < 1 := by rw [hr, div_lt_one (by positivity)]; linarith
  have rk : 1 / 2 < r * k := by
    have : r * k = (1 / 2 + k) / 2 := by rw [hr]; field_simp
    rw [this]; linarith
  have r0 : 0 < r := by rw [hr]; positivity
  have rA : 1 / 2 < A * r := by nlinarith [min_le_left A B]
  have rB : 1 / 2 < B * r := by nlinarith [min_le_right A B]
  set M : ℝ := 2 ^ (A + B) with hM
  have M0 : 0 < M := Real.rpow_pos_of_pos two_pos _
  have hle : ∀ z, hill n A B z ≤ M := by
    intro z
    obtain ⟨p, q⟩ := bend_lt hn z
    rw [hM, Real.rpow_add two_pos]
    exact mul_le_mul (Real.rpow_le_rpow p.le (by linarith) (by linarith)) (Real.rpow_le_rpow q.le (by linarith) (by linarith))
      (Real.rpow_pos_of_pos q _).le (Real.rpow_pos_of_pos two_pos _).le
  have hpow : ∀ z, hill n A B z ^ r = hill n (A * r) (B * r) z := by
    intro z
    obtain ⟨p, q⟩ := bend_lt hn z
    unfold hill
    rw [Real.mul_rpow (Real.rpow_pos_of_pos p _).le (Real.rpow_pos_of_pos q _).le, ← Real.rpow_mul p.le, ← Real.rpow_mul q.le]
  have i := ((hill_int hn hA hB).const_mul |Real.log M|).add ((hill_int hn rA rB).const_mul (M ^ (1 - r) / (1 - r)))
  refine i.mono' ((hill_cont hn A B).mul ((hill_cont hn A B).log fun z => (hill_pos hn A B z).ne')).aestronglyMeasurable
    (ae_of_all _ fun z => ?_)
  have h0 := hill_pos hn A B z
  simp only [Pi.add_apply]
  rw [Real.norm_eq_abs, abs_mul, abs_of_pos h0, ← hpow]
  have key : |Real.log (hill n A B z)| ≤ |Real.log M| + (M / hill n A B z) ^ (1 - r) / (1 - r) := by
    have l1 : 0 ≤ Real.log (M / hill n A B z) := Real.log_nonneg (by rw [le_div_iff₀ h0, one_mul]; exact hle z)
    have l2 := Real.log_le_rpow_div (x := M / hill n A B z) (by positivity) (show 0 < 1 - r by linarith)
    have l3 : Real.log (hill n A B z) = Real.log M - Real.log (M / hill n A B z) := by
      rw [Real.log_div M0.ne' h0.ne']; ring
    rw [l3]
    refine (abs_sub _ _).trans ?_
    rw [abs_of_nonneg l1]
    linarith
  have e : hill n A B z * ((M / hill n A B z) ^ (1 - r) / (1 - r)) = M ^ (1 - r) / (1 - r) * hill n A B z ^ r := by
    rw [Real.div_rpow M0.le h0.le]
    have : hill n A B z = hill n A B z ^ r * hill n A B z ^ (1 - r) := by
      rw [← Real.rpow_add h0]; simp
    have p := Real.rpow_pos_of_pos h0 (1 - r)
    have : hill n A B z / hill n A B z ^ (1 - r) = hill n A B z ^ r := by
      rw [div_eq_iff p.ne']; exact this
    rw [← this]; ring
  calc hill n A B z * |Real.log (hill n A B z)| ≤ hill n A B z * (|Real.log M| + (M / hill n A B z) ^ (1 - r) / (1 - r)) :=
        mul_le_mul_of_nonneg_left key h0.le
    _ = _ := by rw [mul_add, e]; ring

/-! ### the density -/

theorem const_pos {a b : ℝ} (ha : 0 < a) (hb : 0 < b) : 0 < skewStudentConst a b := by
  have h1 := Real.Gamma_pos_of_pos ha
  have h2 := Real.Gamma_pos_of_pos hb
  have h3 := Real.Gamma_pos_of_pos (add_pos ha hb)
  unfold skewStudentConst
  have : 0 < a + b := by positivity
  positivity

theorem const_eq {a b : ℝ} : skewStudentConst a b = 2 ^ (a + b - 1) * beta a b * √(a + b) := by
  unfold skewStudentConst beta
  rw [Real.sqrt_eq_rpow]

theorem pdf_hill (a b m s x : ℝ) :
    skewStudentPdf a b m s x = (skewStudentConst a b)⁻¹ * hill (a + b) (a + 1 / 2) (b + 1 / 2) ((x - m) / s) / s := by
  unfold skewStudentPdf hill bend
  rw [Real.sqrt_eq_rpow, mul_assoc]

theorem std_hump {a b : ℝ} (ha : 0 < a) (hb : 0 < b) : ∃ c, Humped (skewStudentPdf a b 0 1) c := by
  have hn : 0 < a + b := by positivity
  have hC := inv_pos.2 (const_pos ha hb)
  have e : skewStudentPdf a b 0 1 = fun z => (skewStudentConst a b)⁻¹ * hill (a + b) (a + 1 / 2) (b + 1 / 2) z := by
    funext x; rw [pdf_hill, sub_zero, div_one, div_one]
  rw [e]
  obtain ⟨c, h1, h2⟩ := hill_mode hn (A := a + 1 / 2) (B := b + 1 / 2) (by linarith) (by linarith)
  have hT := hill_total hn ha hb
  refine ⟨c, continuous_const.mul (hill_cont hn _ _), fun x => mul_pos hC (hill_pos hn _ _ x),
    fun x y h hy => mul_lt_mul_of_pos_left (h1 x y h hy) hC, fun x y hx h => mul_lt_mul_of_pos_left (h2 x y hx h) hC,
    hT.1.const_mul _, ?_, ?_⟩
  · rw [integral_const_mul, hT.2, ← const_eq, inv_mul_cancel₀ (const_pos ha hb).ne']
  · have i := (hT.1.const_mul ((skewStudentConst a b)⁻¹ * Real.log (skewStudentConst a b)⁻¹)).add
      ((hill_ent hn (A := a + 1 / 2) (B := b + 1 / 2) (by linarith) (by linarith)).const_mul (skewStudentConst a b)⁻¹)
    refine i.congr (ae_of_all _ fun z => ?_)
    simp only [Pi.add_apply]
    rw [Real.log_mul hC.ne' (hill_pos hn _ _ z).ne']
    ring

theorem std_first {a b : ℝ} (ha : 1 / 2 < a) (hb : 1 / 2 < b) :
    HI (fun x => x * skewStudentPdf a b 0 1 x)
      ((a - b) * √(a + b) / 2 * (Real.Gamma (a - 1 / 2) * Real.Gamma (b - 1 / 2) / (Real.Gamma a * Real.Gamma b))) := by
  have hn : 0 < a + b := by linarith
  have h1 := hill_total hn (a := a + 1 / 2) (b := b - 1 / 2) (by linarith) (by linarith)
  have h2 := hill_total hn (a := a - 1 / 2) (b := b + 1 / 2) (by linarith) (by linarith)
  have h := ((h1.add (h2.cmul (-1))).cmul (√(a + b) / 2)).cmul (skewStudentConst a b)⁻¹
  refine h.congr (fun x => ?_) |>.val ?_
  · rw [pdf_hill, sub_zero, div_one, div_one, show x * ((skewStudentConst a b)⁻¹ * hill (a + b) (a + 1 / 2) (b + 1 / 2) x) =
      (skewStudentConst a b)⁻¹ * (x * hill (a + b) (a + 1 / 2) (b + 1 / 2) x) by ring, hill_mul hn]
    rw [show b - 1 / 2 + 1 / 2 = b + 1 / 2 - 1 / 2 by ring, show a - 1 / 2 + 1 / 2 = a + 1 / 2 - 1 / 2 by ring]
    ring
  · rw [const_eq]
    unfold beta
    rw [show a + 1 / 2 + (b - 1 / 2) = a + b by ring, show a - 1 / 2 + (b + 1 / 2) = a + b by ring]
    have g1 : Real.Gamma (a + 1 / 2) = (a - 1 / 2) * Real.Gamma (a - 1 / 2) := by
      rw [← Real.Gamma_add_one (by linarith)]; congr 1; ring
    have g2 : Real.Gamma (b + 1 / 2) = (b - 1 / 2) * Real.Gamma (b - 1 / 2) := by
      rw [← Real.Gamma_add_one (by linarith)]; congr 1; ring
    rw [g1, g2]
    have q1 := Real.Gamma_pos_of_pos (show 0 < a by linarith)
    have q2 := Real.Gamma_pos_of_pos (show 0 < b by linarith)
    have q3 := Real.Gamma_pos_of_pos hn
    have q4 := Real.rpow_pos_of_pos two_pos (a + b - 1)
    have q5 := Real.sqrt_pos.2 hn
    field_simp
    ring

theorem std_second {a b : ℝ} (ha : 1 < a) (hb : 1 < b) :
    HI (fun x => x ^ 2 * skewStudentPdf a b 0 1 x) ((a + b) * ((a - b) ^ 2 + (a + b - 2)) / (4 * (a - 1) * (b - 1))) := by
  have hn : 0 < a + b := by linarith
  have h1 := hill_total hn (a := a + 1) (b := b - 1) (by linarith) (by linarith)
  have h2 := hill_total hn (a := a) (b := b) (by linarith) (by linarith)
  have h3 := hill_total hn (a := a - 1) (b := b + 1) (by linarith) (by linarith)
  have h := ((h1.add (h2.cmul (-2))).add h3).cmul ((skewStudentConst a b)⁻¹ * ((a + b) / 4))
  have hs := Real.mul_self_sqrt hn.le
  refine h.congr (fun x => ?_) |>.val ?_
  · rw [pdf_hill, sub_zero, div_one, div_one, show x ^ 2 * ((skewStudentConst a b)⁻¹ * hill (a + b) (a + 1 / 2) (b + 1 / 2) x) =
      (skewStudentConst a b)⁻¹ * (x * (x * hill (a + b) (a + 1 / 2) (b + 1 / 2) x)) by ring, hill_mul hn,
      show x * (√(a + b) / 2 * (hill (a + b) (a + 1 / 2 + 1 / 2) (b + 1 / 2 - 1 / 2) x -
        hill (a + b) (a + 1 / 2 - 1 / 2) (b + 1 / 2 + 1 / 2) x)) =
      √(a + b) / 2 * (x * hill (a + b) (a + 1 / 2 + 1 / 2) (b + 1 / 2 - 1 / 2) x -
        x * hill (a + b) (a + 1 / 2 - 1 / 2) (b + 1 / 2 + 1 / 2) x) by ring, hill_mul hn, hill_mul hn]
    rw [show a + 1 / 2 + 1 / 2 + 1 / 2 = a + 1 + 1 / 2 by ring, show b + 1 / 2 - 1 / 2 - 1 / 2 = b - 1 + 1 / 2 by ring,
      show a + 1 / 2 + 1 / 2 - 1 / 2 = a + 1 / 2 by ring, show b + 1 / 2 - 1 / 2 + 1 / 2 = b + 1 / 2 by ring,
      show a + 1 / 2 - 1 / 2 + 1 / 2 = a + 1 / 2 by ring, show b + 1 / 2 + 1 / 2 - 1 / 2 = b + 1 / 2 by ring,
      show a + 1 / 2 - 1 / 2 - 1 / 2 = a - 1 + 1 / 2 by ring, show b + 1 / 2 + 1 / 2 + 1 / 2 = b + 1 + 1 / 2 by ring]
    linear_combination (-(1 / 4) * (skewStudentConst a b)⁻¹ * (hill (a + b) (a + 1 + 1 / 2) (b - 1 + 1 / 2) x -
      2 * hill (a + b) (a + 1 / 2) (b + 1 / 2) x + hill (a + b) (a - 1 + 1 / 2) (b + 1 + 1 / 2) x)) * hs
  · rw [const_eq]
    unfold beta
    rw [show a + 1 + (b - 1) = a + b by ring, show a - 1 + (b + 1) = a + b by ring]
    have g1 : Real.Gamma (a + 1) = a * Real.Gamma a := Real.Gamma_add_one (by linarith)
    have g2 : Real.Gamma (b + 1) = b * Real.Gamma b := Real.Gamma_add_one (by linarith)
    have g3 : Real.Gamma a = (a - 1) * Real.Gamma (a - 1) := by
      rw [← Real.Gamma_add_one (by linarith)]; congr 1; ring
    have g4 : Real.Gamma b = (b - 1) * Real.Gamma (b - 1) := by
      rw [← Real.Gamma_add_one (by linarith)]; congr 1; ring
    rw [g1, g2, g3, g4]
    have q1 := Real.Gamma_pos_of_pos (show 0 < a - 1 by linarith)
    have q2 := Real.Gamma_pos_of_pos (show 0 < b - 1 by linarith)
    have q3 := Real.Gamma_pos_of_pos hn
    have q4 := Real.rpow_pos_of_pos two_pos (a + b - 1)
    have q5 := Real.sqrt_pos.2 hn
    have q6 : 0 < a - 1 := by linarith
    have q7 : 0 < b - 1 := by linarith
    field_simp
    ring

theorem pdf_moved (a b m : ℝ) {s : ℝ} : skewStudentPdf a b m s = fun x => 1 / s * skewStudentPdf a b 0 1 ((x - m) / s) := by
  funext x
  rw [pdf_hill, pdf_hill, sub_zero, div_one, div_one]
  ring

/-- equal shapes give StudentT -/
theorem equal_student {a : ℝ} (ha : 0 < a) (m : ℝ) {s : ℝ} (hs : 0 < s) : skewStudentPdf a a m s = studentPdf (2 * a) m s := by
  funext x
  rw [pdf_hill]
  set t := (x - m) / s with ht
  have hn : 0 < a + a := by positivity
  have e1 : hill (a + a) (a + 1 / 2) (a + 1 / 2) t = (1 + t ^ 2 / (2 * a)) ^ (-(2 * a + 1) / 2) := by
    obtain ⟨p, q⟩ := bend_lt hn t
    unfold hill
    rw [← Real.mul_rpow p.le q.le, show (1 + bend (a + a) t) * (1 - bend (a + a) t) = 1 - bend (a + a) t ^ 2 by ring, bend_sq hn,
      show -(2 * a + 1) / 2 = -(a + 1 / 2) by ring, Real.rpow_neg (by positivity), ← Real.inv_rpow (by positivity)]
    congr 1
    have : a + a + t ^ 2 ≠ 0 := by positivity
    field_simp
    ring
  rw [e1]
  unfold studentPdf skewStudentConst
  rw [← ht]
  have d := Real.Gamma_mul_Gamma_add_half a
  have g1 := Real.Gamma_pos_of_pos ha
  have g2 := Real.Gamma_pos_of_pos (show 0 < a + 1 / 2 by linarith)
  have g3 := Real.Gamma_pos_of_pos hn
  have hp := Real.pi_pos
  have r1 : √(2 * a * Real.pi) = √(a + a) * √Real.pi := by rw [← Real.sqrt_mul hn.le]; congr 1; ring
  have e2 : (2 : ℝ) ^ (a + a - 1) * 2 ^ (1 - 2 * a) = 1 := by
    rw [← Real.rpow_add two_pos, show a + a - 1 + (1 - 2 * a) = 0 by ring, Real.rpow_zero]
  rw [← Real.sqrt_eq_rpow, r1, show (2 * a + 1) / 2 = a + 1 / 2 by ring, show 2 * a / 2 = a by ring]
  rw [show 2 * a = a + a by ring] at d e2 ⊢
  have c : (2 ^ (a + a - 1) * (Real.Gamma a * Real.Gamma a / Real.Gamma (a + a)) * √(a + a))⁻¹ =
      Real.Gamma (a + 1 / 2) / (√(a + a) * √Real.pi * Real.Gamma a) := by
    have q := Real.sqrt_pos.2 hn
    have q2 := Real.sqrt_pos.2 hp
    have q3 := Real.rpow_pos_of_pos two_pos (a + a - 1)
    rw [inv_eq_iff_eq_inv, inv_div]
    have : Real.Gamma (a + a) * √Real.pi = 2 ^ (a + a - 1) * (Real.Gamma a * Real.Gamma (a + 1 / 2)) := by
      rw [d]
      calc Real.Gamma (a + a) * √Real.pi = 2 ^ (a + a - 1) * 2 ^ (1 - (a + a)) * (Real.Gamma (a + a) * √Real.pi) := by
            rw [e2, one_mul]
        _ = _ := by ring
    generalize Real.Gamma (a + 1 / 2) = G1 at *
    generalize Real.Gamma (a + a) = G2 at *
    generalize (2 : ℝ) ^ (a + a - 1) = T at *
    generalize √(a + a) = R at *
    field_simp
    linarith
  rw [c]
  field_simp

end Verif.SkewStudent
