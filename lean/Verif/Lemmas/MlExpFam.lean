import Verif.Lemmas.MlConvex
import Verif.Lemmas.MoreLaws
import Mathlib.Tactic

/-!
# Likelihoods of families with two sufficient statistics

The density is `exp (a t₁ x + b t₂ x) w x / Z a b` on an open set.
-/

namespace Verif.Ml
open Set Filter Topology MeasureTheory Verif.Law

/-- unnormalised density -/
noncomputable def kern (t1 t2 w : ℝ → ℝ) (a b x : ℝ) : ℝ := Real.exp (a * t1 x + b * t2 x) * w x

/-- a family with positive parameters `a` and `b` -/
structure ExpFam (S : Set ℝ) (t1 t2 w : ℝ → ℝ) (Z : ℝ → ℝ → ℝ) : Prop where
  opn : IsOpen S
  c1 : ContinuousOn t1 S
  c2 : ContinuousOn t2 S
  cw : ContinuousOn w S
  pos : ∀ x ∈ S, 0 < w x
  int : ∀ a b, 0 < a → 0 < b → HIs S (kern t1 t2 w a b) (Z a b)
  indep : ∀ d e c, (∀ x ∈ S, d * t1 x + e * t2 x = c) → d = 0 ∧ e = 0
  zpos : ∀ a b, 0 < a → 0 < b → 0 < Z a b
  zcont : ContinuousOn (fun p : ℝ × ℝ => Z p.1 p.2) {p | 0 < p.1 ∧ 0 < p.2}
  blow : ∀ R M, ∃ r, 0 < r ∧ ∀ a b, 0 < a → 0 < b → a ≤ R → b ≤ R → (a < r ∨ b < r) → M < Z a b

/-- the log-likelihood of `n` values with means `L1` and `L2` of the statistics, divided by `n` -/
noncomputable def expObj (Z : ℝ → ℝ → ℝ) (L1 L2 : ℝ) (p : ℝ × ℝ) : ℝ := -Real.log (Z p.1 p.2) + p.1 * L1 + p.2 * L2

variable {S : Set ℝ} {t1 t2 w : ℝ → ℝ} {Z : ℝ → ℝ → ℝ}

theorem ExpFam.kern_cont (F : ExpFam S t1 t2 w Z) (a b : ℝ) : ContinuousOn (kern t1 t2 w a b) S := by
  unfold kern
  exact (((continuousOn_const.mul F.c1).add (continuousOn_const.mul F.c2)).rexp).mul F.cw

/-- the normalising factor is strictly log-convex -/
theorem ExpFam.mid (F : ExpFam S t1 t2 w Z) {a b a' b' : ℝ} (ha : 0 < a) (hb : 0 < b) (ha' : 0 < a') (hb' : 0 < b')
    (hne : (a, b) ≠ (a', b')) : Z ((a + a') / 2) ((b + b') / 2) ^ 2 < Z a b * Z a' b' := by
  have hz := F.zpos a b ha hb
  have hz' := F.zpos a' b' ha' hb'
  have hm := F.int ((a + a') / 2) ((b + b') / 2) (by linarith) (by linarith)
  have h1 := F.int a b ha hb
  have h2 := F.int a' b' ha' hb'
  set c := 1 / Z a b
  set c' := 1 / Z a' b'
  have hc : 0 < c := by positivity
  have hc' : 0 < c' := by positivity
  -- the square of a difference of two square roots
  set h : ℝ → ℝ := fun x => c * kern t1 t2 w a b x + c' * kern t1 t2 w a' b' x -
    2 * (√c * √c') * kern t1 t2 w ((a + a') / 2) ((b + b') / 2) x with hh
  have hsq : ∀ x ∈ S, h x = (√c * Real.exp ((a * t1 x + b * t2 x) / 2) - √c' * Real.exp ((a' * t1 x + b' * t2 x) / 2)) ^ 2 * w x := by
    intro x hx
    have e1 : Real.exp (a * t1 x + b * t2 x) = Real.exp ((a * t1 x + b * t2 x) / 2) ^ 2 := by
      rw [← Real.exp_nat_mul]; congr 1; push_cast; ring
    have e2 : Real.exp (a' * t1 x + b' * t2 x) = Real.exp ((a' * t1 x + b' * t2 x) / 2) ^ 2 := by
      rw [← Real.exp_nat_mul]; congr 1; push_cast; ring
    have e3 : Real.exp ((a + a') / 2 * t1 x + (b + b') / 2 * t2 x) =
        Real.exp ((a * t1 x + b * t2 x) / 2) * Real.exp ((a' * t1 x + b' * t2 x) / 2) := by
      rw [← Real.exp_add]; congr 1; ring
    have s1 := Real.sq_sqrt hc.le
    have s2 := Real.sq_sqrt hc'.le
    simp only [hh, kern]
    rw [e1, e2, e3]
    generalize Real.exp ((a * t1 x + b * t2 x) / 2) = u
    generalize Real.exp ((a' * t1 x + b' * t2 x) / 2) = v
    have : (√c * u - √c' * v) ^ 2 * w x = (√c ^ 2 * u ^ 2 + √c' ^ 2 * v ^ 2 - 2 * (√c * √c') * (u * v)) * w x := by ring
    rw [this, s1, s2]
    ring
  have hv : HIs S h (c * Z a b + c' * Z a' b' + -(2 * (√c * √c')) * Z ((a + a') / 2) ((b + b') / 2)) :=
    (((h1.cmul c).add (h2.cmul c')).add (hm.cmul (-(2 * (√c * √c'))))).congr F.opn.measurableSet fun x _ => by
      simp only [hh]
      ring
  have hint : IntegrableOn h S := hv.1
  have hval : ∫ x in S, h x = 2 - 2 * (√c * √c') * Z ((a + a') / 2) ((b + b') / 2) := by
    rw [hv.2]
    have : c * Z a b = 1 := by simp only [c]; field_simp
    have : c' * Z a' b' = 1 := by simp only [c']; field_simp
    linarith
  have hpos : 0 < ∫ x in S, h x := by
    rw [setIntegral_pos_iff_support_of_nonneg_ae ?_ hint]
    · -- a point where the two densities differ
      have hx : ∃ x ∈ S, h x ≠ 0 := by
        by_contra hcon
        push Not at hcon
        have hlin : ∀ x ∈ S, (a - a') * t1 x + (b - b') * t2 x = Real.log c' - Real.log c := by
          intro x hx
          have h0 := hcon x hx
          rw [hsq x hx] at h0
          have h3 : √c * Real.exp ((a * t1 x + b * t2 x) / 2) = √c' * Real.exp ((a' * t1 x + b' * t2 x) / 2) := by
            have := (mul_eq_zero.1 h0).resolve_right (F.pos x hx).ne'
            exact sub_eq_zero.1 (pow_eq_zero_iff two_ne_zero |>.1 this)
          have h4 := congrArg Real.log h3
          rw [Real.log_mul (Real.sqrt_pos.2 hc).ne' (Real.exp_pos _).ne', Real.log_mul (Real.sqrt_pos.2 hc').ne'
            (Real.exp_pos _).ne', Real.log_exp, Real.log_exp, Real.log_sqrt hc.le, Real.log_sqrt hc'.le] at h4
          linarith
        obtain ⟨h5, h6⟩ := F.indep _ _ _ hlin
        exact hne (Prod.ext (sub_eq_zero.1 h5) (sub_eq_zero.1 h6))
      obtain ⟨x0, hx0, hne0⟩ := hx
      have hcont : ContinuousOn h S := by
        simp only [hh]
        exact ((continuousOn_const.mul (F.kern_cont _ _)).add (continuousOn_const.mul (F.kern_cont _ _))).sub
          (continuousOn_const.mul (F.kern_cont _ _))
      have ho : IsOpen (S ∩ h ⁻¹' {0}ᶜ) := hcont.isOpen_inter_preimage F.opn isOpen_compl_singleton
      have hsub : S ∩ h ⁻¹' {0}ᶜ ⊆ Function.support h ∩ S := fun x hx => ⟨hx.2, hx.1⟩
      exact (ho.measure_pos volume ⟨x0, hx0, hne0⟩).trans_le (measure_mono hsub)
    · refine (ae_restrict_iff' F.opn.measurableSet).2 (ae_of_all _ fun x hx => ?_)
      show 0 ≤ h x
      rw [hsq x hx]
      exact mul_nonneg (sq_nonneg _) (F.pos x hx).le
  rw [hval] at hpos
  have hzm := F.zpos ((a + a') / 2) ((b + b') / 2) (by linarith) (by linarith)
  have h7 : √c * √c' * Z ((a + a') / 2) ((b + b') / 2) < 1 := by linarith
  have h8 : (√c * √c' * Z ((a + a') / 2) ((b + b') / 2)) ^ 2 < 1 := by
    have h9 : 0 ≤ √c * √c' * Z ((a + a') / 2) ((b + b') / 2) := by positivity
    nlinarith
  have h10 : (√c * √c' * Z ((a + a') / 2) ((b + b') / 2)) ^ 2 = c * c' * Z ((a + a') / 2) ((b + b') / 2) ^ 2 := by
    rw [mul_pow, mul_pow, Real.sq_sqrt hc.le, Real.sq_sqrt hc'.le]
  rw [h10] at h8
  have h11 : c * c' = 1 / (Z a b * Z a' b') := by simp only [c, c']; field_simp
  rw [h11, one_div, inv_mul_lt_iff₀ (mul_pos hz hz'), mul_one] at h8
  exact h8

/-- at most one maximum -/
theorem ExpFam.unique (F : ExpFam S t1 t2 w Z) {L1 L2 : ℝ} {p q : ℝ × ℝ} (hp : 0 < p.1 ∧ 0 < p.2) (hq : 0 < q.1 ∧ 0 < q.2)
    (hpm : ∀ r : ℝ × ℝ, 0 < r.1 ∧ 0 < r.2 → expObj Z L1 L2 r ≤ expObj Z L1 L2 p)
    (hqm : ∀ r : ℝ × ℝ, 0 < r.1 ∧ 0 < r.2 → expObj Z L1 L2 r ≤ expObj Z L1 L2 q) : p = q := by
  by_contra hne
  have h := F.mid hp.1 hp.2 hq.1 hq.2 (fun h => hne (Prod.ext (congrArg Prod.fst h) (congrArg Prod.snd h)))
  have he : expObj Z L1 L2 p = expObj Z L1 L2 q := le_antisymm (hqm p hp) (hpm q hq)
  have hr := hpm ((p.1 + q.1) / 2, (p.2 + q.2) / 2) ⟨by simp only; linarith [hp.1, hq.1], by simp only; linarith [hp.2, hq.2]⟩
  have hzm := F.zpos ((p.1 + q.1) / 2) ((p.2 + q.2) / 2) (by linarith [hp.1, hq.1]) (by linarith [hp.2, hq.2])
  have hl := Real.log_lt_log (by positivity) h
  rw [Real.log_pow, Real.log_mul (F.zpos _ _ hp.1 hp.2).ne' (F.zpos _ _ hq.1 hq.2).ne'] at hl
  push_cast at hl
  unfold expObj at he hr
  simp only at hr
  linarith

/-- a maximum, if both statistics are above their means on some set of positive measure -/
theorem ExpFam.exists (F : ExpFam S t1 t2 w Z) {L1 L2 u v δ : ℝ} (huv : u < v) (hδ : 0 < δ) (hV : Icc u v ⊆ S)
    (h1 : ∀ x ∈ Icc u v, L1 + δ ≤ t1 x) (h2 : ∀ x ∈ Icc u v, L2 + δ ≤ t2 x) :
    ∃ p : ℝ × ℝ, (0 < p.1 ∧ 0 < p.2) ∧ ∀ q : ℝ × ℝ, 0 < q.1 ∧ 0 < q.2 → expObj Z L1 L2 q ≤ expObj Z L1 L2 p := by
  obtain ⟨x0, hx0, hmin⟩ := isCompact_Icc.exists_isMinOn (nonempty_Icc.2 huv.le) (F.cw.mono hV)
  have hw0 := F.pos x0 (hV hx0)
  set W := (v - u) * w x0 with hW
  have hWp : 0 < W := mul_pos (sub_pos.2 huv) hw0
  have hlow : ∀ a b, 0 < a → 0 < b → Real.exp (a * (L1 + δ) + b * (L2 + δ)) * W ≤ Z a b := by
    intro a b ha hb
    have hi := F.int a b ha hb
    rw [← hi.2]
    have hA : ∫ x in Icc u v, Real.exp (a * (L1 + δ) + b * (L2 + δ)) * w x0 ≤ ∫ x in Icc u v, kern t1 t2 w a b x := by
      refine setIntegral_mono_on (integrableOn_const (by simp)) (hi.1.mono_set hV) measurableSet_Icc fun x hx => ?_
      unfold kern
      refine mul_le_mul (Real.exp_le_exp.2 ?_) (hmin hx) hw0.le (Real.exp_pos _).le
      have := mul_le_mul_of_nonneg_left (h1 x hx) ha.le
      have := mul_le_mul_of_nonneg_left (h2 x hx) hb.le
      linarith
    have hB : ∫ x in Icc u v, kern t1 t2 w a b x ≤ ∫ x in S, kern t1 t2 w a b x := by
      refine setIntegral_mono_set hi.1 ?_ (ae_of_all _ hV)
      refine (ae_restrict_iff' F.opn.measurableSet).2 (ae_of_all _ fun x hx => ?_)
      exact mul_nonneg (Real.exp_pos _).le (F.pos x hx).le
    rw [setIntegral_const, Real.volume_real_Icc_of_le huv.le, smul_eq_mul] at hA
    calc _ = (v - u) * (Real.exp (a * (L1 + δ) + b * (L2 + δ)) * w x0) := by rw [hW]; ring
      _ ≤ _ := hA.trans hB
  have hB1 : ∀ p : ℝ × ℝ, 0 < p.1 ∧ 0 < p.2 → expObj Z L1 L2 p ≤ -Real.log W - δ * (p.1 + p.2) := by
    intro p hp
    have h := Real.log_le_log (by positivity) (hlow p.1 p.2 hp.1 hp.2)
    rw [Real.log_mul (Real.exp_pos _).ne' hWp.ne', Real.log_exp] at h
    unfold expObj
    nlinarith
  set L := expObj Z L1 L2 (1, 1) with hL
  set R := max 1 ((-Real.log W - L) / δ + 1) with hR
  have hR1 : 0 < R := one_pos.trans_le (le_max_left _ _)
  have hbig : ∀ p : ℝ × ℝ, 0 < p.1 ∧ 0 < p.2 → R < p.1 + p.2 → expObj Z L1 L2 p < L := by
    intro p hp h
    have h3 := hB1 p hp
    have h4 : (-Real.log W - L) / δ + 1 < p.1 + p.2 := (le_max_right _ _).trans_lt h
    have h5 := mul_lt_mul_of_pos_left h4 hδ
    have h6 : δ * ((-Real.log W - L) / δ + 1) = -Real.log W - L + δ := by field_simp
    linarith
  obtain ⟨r, hr, hblow⟩ := F.blow R (Real.exp (R * (|L1| + |L2|) - L))
  have hsmall : ∀ p : ℝ × ℝ, 0 < p.1 ∧ 0 < p.2 → p.1 ≤ R → p.2 ≤ R → (p.1 < r ∨ p.2 < r) → expObj Z L1 L2 p < L := by
    intro p hp h3 h4 h5
    have h6 := hblow p.1 p.2 hp.1 hp.2 h3 h4 h5
    have h7 := Real.log_lt_log (Real.exp_pos _) h6
    rw [Real.log_exp] at h7
    have h8 : p.1 * L1 ≤ R * |L1| := (mul_le_mul_of_nonneg_left (le_abs_self _) hp.1.le).trans
      (mul_le_mul_of_nonneg_right h3 (abs_nonneg _))
    have h9 : p.2 * L2 ≤ R * |L2| := (mul_le_mul_of_nonneg_left (le_abs_self _) hp.2.le).trans
      (mul_le_mul_of_nonneg_right h4 (abs_nonneg _))
    unfold expObj
    linarith
  obtain ⟨p, hp, hm⟩ := exists_max (expObj Z L1 L2) {p | 0 < p.1 ∧ 0 < p.2} (Icc r R ×ˢ Icc r R) (1, 1) ⟨one_pos, one_pos⟩
    (isCompact_Icc.prod isCompact_Icc) (fun p hp => ⟨hr.trans_le hp.1.1, hr.trans_le hp.2.1⟩) (by
      have hc : ContinuousOn (expObj Z L1 L2) {p | 0 < p.1 ∧ 0 < p.2} := by
        unfold expObj
        exact (((F.zcont.log fun p hp => (F.zpos _ _ hp.1 hp.2).ne').neg).add
          (continuousOn_fst.mul continuousOn_const)).add (continuousOn_snd.mul continuousOn_const)
      exact hc.mono fun p hp => ⟨hr.trans_le hp.1.1, hr.trans_le hp.2.1⟩) (by
      intro p hp hout
      by_contra hge
      have h3 : p.1 + p.2 ≤ R := by
        by_contra h
        exact hge (hbig p hp (not_le.1 h))
      have h4 : p.1 ≤ R := by linarith [hp.2]
      have h5 : p.2 ≤ R := by linarith [hp.1]
      have h6 : ¬ (p.1 < r ∨ p.2 < r) := fun h => hge (hsmall p hp h4 h5 h)
      push Not at h6
      exact hout ⟨⟨h6.1, h4⟩, ⟨h6.2, h5⟩⟩)
  exact ⟨p, hp, fun q hq => hm q hq⟩

/-- the second parameter is given -/
theorem ExpFam.exists_slice (F : ExpFam S t1 t2 w Z) {b0 L1 u v δ : ℝ} (hb0 : 0 < b0) (huv : u < v) (hδ : 0 < δ) (hV : Icc u v ⊆ S)
    (h1 : ∀ x ∈ Icc u v, L1 + δ ≤ t1 x) :
    ∃ a, 0 < a ∧ ∀ a', 0 < a' → expObj Z L1 0 (a', b0) ≤ expObj Z L1 0 (a, b0) := by
  obtain ⟨x0, hx0, hmin⟩ := isCompact_Icc.exists_isMinOn (nonempty_Icc.2 huv.le) (F.cw.mono hV)
  obtain ⟨x1, hx1, hmin1⟩ := isCompact_Icc.exists_isMinOn (nonempty_Icc.2 huv.le) (F.c2.mono hV)
  have hw0 := F.pos x0 (hV hx0)
  set W := (v - u) * w x0 * Real.exp (b0 * t2 x1) with hW
  have hWp : 0 < W := mul_pos (mul_pos (sub_pos.2 huv) hw0) (Real.exp_pos _)
  have hlow : ∀ a, 0 < a → Real.exp (a * (L1 + δ)) * W ≤ Z a b0 := by
    intro a ha
    have hi := F.int a b0 ha hb0
    rw [← hi.2]
    have hA : ∫ x in Icc u v, Real.exp (a * (L1 + δ) + b0 * t2 x1) * w x0 ≤ ∫ x in Icc u v, kern t1 t2 w a b0 x := by
      refine setIntegral_mono_on (integrableOn_const (by simp)) (hi.1.mono_set hV) measurableSet_Icc fun x hx => ?_
      unfold kern
      refine mul_le_mul (Real.exp_le_exp.2 ?_) (hmin hx) hw0.le (Real.exp_pos _).le
      have := mul_le_mul_of_nonneg_left (h1 x hx) ha.le
      have h2 : t2 x1 ≤ t2 x := hmin1 hx
      have := mul_le_mul_of_nonneg_left h2 hb0.le
      linarith
    have hB : ∫ x in Icc u v, kern t1 t2 w a b0 x ≤ ∫ x in S, kern t1 t2 w a b0 x := by
      refine setIntegral_mono_set hi.1 ?_ (ae_of_all _ hV)
      refine (ae_restrict_iff' F.opn.measurableSet).2 (ae_of_all _ fun x hx => ?_)
      exact mul_nonneg (Real.exp_pos _).le (F.pos x hx).le
    rw [setIntegral_const, Real.volume_real_Icc_of_le huv.le, smul_eq_mul] at hA
    calc _ = (v - u) * (Real.exp (a * (L1 + δ) + b0 * t2 x1) * w x0) := by rw [hW, Real.exp_add]; ring
      _ ≤ _ := hA.trans hB
  have hB1 : ∀ a, 0 < a → expObj Z L1 0 (a, b0) ≤ -Real.log W - δ * a := by
    intro a ha
    have h := Real.log_le_log (by positivity) (hlow a ha)
    rw [Real.log_mul (Real.exp_pos _).ne' hWp.ne', Real.log_exp] at h
    unfold expObj
    simp only
    nlinarith
  set L := expObj Z L1 0 (1, b0) with hL
  set R := max (max 1 b0) ((-Real.log W - L) / δ + 1) with hR
  have hR1 : 0 < R := one_pos.trans_le ((le_max_left _ _).trans (le_max_left _ _))
  have hRb : b0 ≤ R := (le_max_right _ _).trans (le_max_left _ _)
  have hbig : ∀ a, 0 < a → R < a → expObj Z L1 0 (a, b0) < L := by
    intro a ha h
    have h3 := hB1 a ha
    have h4 : (-Real.log W - L) / δ + 1 < a := (le_max_right _ _).trans_lt h
    have h5 := mul_lt_mul_of_pos_left h4 hδ
    have h6 : δ * ((-Real.log W - L) / δ + 1) = -Real.log W - L + δ := by field_simp
    linarith
  obtain ⟨r, hr, hblow⟩ := F.blow R (Real.exp (R * |L1| - L))
  have hsmall : ∀ a, 0 < a → a ≤ R → a < r → expObj Z L1 0 (a, b0) < L := by
    intro a ha h3 h5
    have h6 := hblow a b0 ha hb0 h3 hRb (Or.inl h5)
    have h7 := Real.log_lt_log (Real.exp_pos _) h6
    rw [Real.log_exp] at h7
    have h8 : a * L1 ≤ R * |L1| := (mul_le_mul_of_nonneg_left (le_abs_self _) ha.le).trans
      (mul_le_mul_of_nonneg_right h3 (abs_nonneg _))
    unfold expObj
    simp only [mul_zero, add_zero]
    linarith
  obtain ⟨a, ha, hm⟩ := exists_max (fun a => expObj Z L1 0 (a, b0)) (Ioi 0) (Icc r R) 1 (mem_Ioi.2 one_pos) isCompact_Icc
    (fun a ha => hr.trans_le ha.1) (by
      have hc : ContinuousOn (expObj Z L1 0) {p | 0 < p.1 ∧ 0 < p.2} := by
        unfold expObj
        exact (((F.zcont.log fun p hp => (F.zpos _ _ hp.1 hp.2).ne').neg).add
          (continuousOn_fst.mul continuousOn_const)).add (continuousOn_snd.mul continuousOn_const)
      exact hc.comp (f := fun a : ℝ => (a, b0)) (by fun_prop) fun a ha => ⟨hr.trans_le ha.1, hb0⟩) (by
      intro a ha hout
      by_contra hge
      have h4 : a ≤ R := by
        by_contra h
        exact hge (hbig a ha (not_le.1 h))
      have h6 : r ≤ a := by
        by_contra h
        exact hge (hsmall a ha h4 (not_le.1 h))
      exact hout ⟨h6, h4⟩)
  exact ⟨a, ha, fun a' ha' => hm a' ha'⟩

theorem ExpFam.unique_slice (F : ExpFam S t1 t2 w Z) {b0 L1 a a' : ℝ} (hb0 : 0 < b0) (ha : 0 < a) (ha' : 0 < a')
    (hm : ∀ r, 0 < r → expObj Z L1 0 (r, b0) ≤ expObj Z L1 0 (a, b0))
    (hm' : ∀ r, 0 < r → expObj Z L1 0 (r, b0) ≤ expObj Z L1 0 (a', b0)) : a = a' := by
  by_contra hne
  have h := F.mid ha hb0 ha' hb0 (fun he => hne (congrArg Prod.fst he))
  have hz := F.zpos _ _ ha hb0
  have hz' := F.zpos _ _ ha' hb0
  have hzm := F.zpos ((a + a') / 2) ((b0 + b0) / 2) (by positivity) (by positivity)
  have h2 := Real.log_lt_log (by positivity) h
  rw [Real.log_pow, Real.log_mul hz.ne' hz'.ne'] at h2
  have h3 := hm ((a + a') / 2) (by positivity)
  have h4 := hm' ((a + a') / 2) (by positivity)
  unfold expObj at h3 h4
  simp only at h3 h4
  rw [show (b0 + b0) / 2 = b0 by ring] at h2
  push_cast at h2
  linarith

/-- a sample of equal values is as likely as one likes -/
theorem ExpFam.unbounded (F : ExpFam S t1 t2 w Z) {d e c : ℝ} (hd : 0 < d) (he : 0 < e)
    (hk : ∀ x ∈ S, x ≠ c → d * (t1 x - t1 c) + e * (t2 x - t2 c) < 0) (M : ℝ) :
    ∃ p : ℝ × ℝ, (0 < p.1 ∧ 0 < p.2) ∧ M < expObj Z (t1 c) (t2 c) p := by
  set k : ℝ → ℝ := fun x => d * (t1 x - t1 c) + e * (t2 x - t2 c) with hkd
  have hkc : ContinuousOn k S := (continuousOn_const.mul (F.c1.sub continuousOn_const)).add
    (continuousOn_const.mul (F.c2.sub continuousOn_const))
  have hform : ∀ n : ℕ, ∀ x, Real.exp (((n : ℝ) + 1) * k x) * w x =
      Real.exp (-(((n : ℝ) + 1) * (d * t1 c + e * t2 c))) * kern t1 t2 w (((n : ℝ) + 1) * d) (((n : ℝ) + 1) * e) x := by
    intro n x
    unfold kern
    rw [← mul_assoc, ← Real.exp_add]
    congr 2
    simp only [hkd]
    ring
  have hint : ∀ n : ℕ, IntegrableOn (fun x => Real.exp (((n : ℝ) + 1) * k x) * w x) S := by
    intro n
    simp only [hform]
    exact (F.int _ _ (by positivity) (by positivity)).1.const_mul _
  have hval : ∀ n : ℕ, ∫ x in S, Real.exp (((n : ℝ) + 1) * k x) * w x =
      Real.exp (-(((n : ℝ) + 1) * (d * t1 c + e * t2 c))) * Z (((n : ℝ) + 1) * d) (((n : ℝ) + 1) * e) := by
    intro n
    simp only [hform]
    rw [integral_const_mul, (F.int _ _ (by positivity) (by positivity)).2]
  have hlim : Tendsto (fun n : ℕ => ∫ x in S, Real.exp (((n : ℝ) + 1) * k x) * w x) atTop (𝓝 0) := by
    have h0 : (0 : ℝ) = ∫ x in S, (0 : ℝ) := by simp
    rw [h0]
    refine tendsto_integral_of_dominated_convergence (fun x => Real.exp (((0 : ℕ) + 1 : ℝ) * k x) * w x)
      (fun n => (hint n).aestronglyMeasurable) (by have := hint 0; exact_mod_cast this) ?_ ?_
    · intro n
      refine (ae_restrict_iff' F.opn.measurableSet).2 (ae_of_all _ fun x hx => ?_)
      have hw := F.pos x hx
      rw [Real.norm_eq_abs, abs_of_nonneg (by positivity)]
      refine mul_le_mul_of_nonneg_right (Real.exp_le_exp.2 ?_) hw.le
      have hk0 : k x ≤ 0 := by
        by_cases h : x = c
        · simp [hkd, h]
        · exact (hk x hx h).le
      have : (0 : ℝ) ≤ n := Nat.cast_nonneg n
      push_cast
      nlinarith
    · have hne : ∀ᵐ x ∂(volume.restrict S), x ≠ c := by
        refine ae_restrict_of_ae ?_
        have : (volume : Measure ℝ) {c} = 0 := by simp
        exact compl_mem_ae_iff.2 this
      filter_upwards [hne, ae_restrict_mem F.opn.measurableSet] with x hx hxS
      have hk0 := hk x hxS hx
      have h1 : Tendsto (fun n : ℕ => ((n : ℝ) + 1) * k x) atTop atBot :=
        Tendsto.atTop_mul_const_of_neg hk0 (tendsto_atTop_add_const_right _ _ tendsto_natCast_atTop_atTop)
      have h2 := (Real.tendsto_exp_atBot.comp h1).mul_const (w x)
      simpa using h2
  have hev := hlim.eventually_lt_const (Real.exp_pos (-M))
  obtain ⟨n, hn⟩ := hev.exists
  refine ⟨(((n : ℝ) + 1) * d, ((n : ℝ) + 1) * e), ⟨by positivity, by positivity⟩, ?_⟩
  rw [hval n] at hn
  have hz := F.zpos (((n : ℝ) + 1) * d) (((n : ℝ) + 1) * e) (by positivity) (by positivity)
  have hl := Real.log_lt_log (by positivity) hn
  rw [Real.log_mul (Real.exp_pos _).ne' hz.ne', Real.log_exp, Real.log_exp] at hl
  unfold expObj
  simp only
  linarith

end Verif.Ml
