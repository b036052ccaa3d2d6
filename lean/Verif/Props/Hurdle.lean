import Verif.Lemmas.Censored

set_option linter.unusedSimpArgs false

/-!
# C18: `Hurdle`

The law of a hurdle distribution is zero with probability `1 - psi` and otherwise the base law
conditioned on being positive.
-/

namespace Verif.Props
open Verif MeasureTheory Verif.Spec Verif.Modifier

/-- the base lives on the non-negative axis and is not concentrated at zero -/
structure HurdleBase (b : Base) : Prop where
  nonneg : ∀ᵐ (y : ℝ) ∂b.law, 0 ≤ y
  pos : 0 < b.law.real (Set.Ioi 0)

theorem hurdle_tail (b : Base) : b.law.real (Set.Ioi 0) = 1 - b.cdf ((0 : ℝ) : EReal) := by
  rw [b.cdf_coe, ← Set.compl_Iic, probReal_compl_eq_one_sub measurableSet_Iic]

open Classical in
theorem hurdleLaw_real (μ : Measure ℝ) [IsProbabilityMeasure μ] (psi : ℝ) (h0 : 0 ≤ psi)
    (h1 : psi ≤ 1) (A : Set ℝ) :
    (hurdleLaw μ psi).real A
      = (if (0 : ℝ) ∈ A then 1 - psi else 0) + psi * (μ.real (Set.Ioi 0 ∩ A) / μ.real (Set.Ioi 0)) := by
  have hc : (ProbabilityTheory.cond μ (Set.Ioi 0)).real A
      = μ.real (Set.Ioi 0 ∩ A) / μ.real (Set.Ioi 0) := by
    rw [measureReal_def, ProbabilityTheory.cond_apply measurableSet_Ioi, ENNReal.toReal_mul,
      ENNReal.toReal_inv, div_eq_inv_mul]
    rfl
  rw [← hc]
  unfold hurdleLaw
  have f1 : (ENNReal.ofReal (1 - psi) • Measure.dirac (0 : ℝ)) A ≠ ⊤ := by
    rw [Measure.smul_apply, smul_eq_mul]
    exact ENNReal.mul_ne_top ENNReal.ofReal_ne_top (measure_ne_top _ _)
  have f2 : (ENNReal.ofReal psi • ProbabilityTheory.cond μ (Set.Ioi 0)) A ≠ ⊤ := by
    rw [Measure.smul_apply, smul_eq_mul]
    exact ENNReal.mul_ne_top ENNReal.ofReal_ne_top (measure_ne_top _ _)
  rw [measureReal_add_apply f1 f2, measureReal_ennreal_smul_apply, measureReal_ennreal_smul_apply,
    ENNReal.toReal_ofReal h0, ENNReal.toReal_ofReal (by linarith)]
  congr 1
  rw [measureReal_def, Measure.dirac_apply]
  by_cases h : (0 : ℝ) ∈ A <;> simp [h]

/-- the law is a probability law -/
theorem hurdle_proper (b : Base) (hb : HurdleBase b) (psi : ℝ) (h0 : 0 ≤ psi) (h1 : psi ≤ 1) :
    (hurdleLaw b.law psi).real Set.univ = 1 ∧ (hurdleLaw b.law psi).real {0} = 1 - psi := by
  constructor
  · rw [hurdleLaw_real _ _ h0 h1]
    simp [div_self hb.pos.ne']
  · rw [hurdleLaw_real _ _ h0 h1]
    have : Set.Ioi (0 : ℝ) ∩ {0} = ∅ := by ext; simp
    simp [this]

theorem hurdle_eps_discrete (b : Base) (hd : b.discrete = true) :
    b.cdf ((eps : ℝ) : EReal) = b.cdf ((0 : ℝ) : EReal) := by
  unfold Base.cdf
  apply measureReal_congr
  filter_upwards [(b.discrete_law hd).1] with y ⟨k, hk⟩
  apply propext
  show (y : EReal) ≤ _ ↔ (y : EReal) ≤ _
  rw [EReal.coe_le_coe_iff, EReal.coe_le_coe_iff, hk]
  have e1 : eps < 1 := by unfold eps; norm_num
  constructor
  · intro h
    have : (k : ℝ) < 1 := lt_of_le_of_lt h e1
    have : k < 1 := by exact_mod_cast this
    exact_mod_cast Int.lt_add_one_iff.1 this
  · intro h; exact h.trans eps_pos.le

/-- C18: on a discrete base `pdf` is the probability mass function of the hurdle law. -/
theorem hurdle_mass (b : Base) (hd : b.discrete = true) (hb : HurdleBase b) (psi : ℝ) (h0 : 0 ≤ psi)
    (h1 : psi ≤ 1) (x : ℝ) : hurdlePdf b psi x = (hurdleLaw b.law psi).real {x} := by
  classical
  rw [hurdleLaw_real _ _ h0 h1]
  unfold hurdlePdf
  rw [hurdle_eps_discrete b hd, ← hurdle_tail, (b.discrete_law hd).2]
  by_cases hx : x = 0
  · subst hx
    have : Set.Ioi (0 : ℝ) ∩ {0} = ∅ := by ext; simp
    simp [this]
  · rw [if_neg hx, if_neg (by simpa [eq_comm] using hx)]
    have : b.law.real (Set.Ioi 0 ∩ {x}) = b.law.real {x} := by
      apply measureReal_congr
      filter_upwards [hb.nonneg] with y hy
      apply propext
      show (0 < y ∧ y = x) ↔ y = x
      constructor
      · exact fun h => h.2
      · intro h; exact ⟨lt_of_le_of_ne hy (by rw [h]; exact Ne.symm hx), h⟩
    rw [this]; ring

/-- C18: on a continuous base, if the base has no mass in (0, eps], `pdf` is the density of the hurdle
law with respect to length plus a unit atom at zero. -/
theorem hurdle_density_partial (b : Base) (hd : b.discrete = false) (hb : HurdleBase b) (psi : ℝ)
    (h0 : 0 ≤ psi) (h1 : psi ≤ 1) (hgap : b.cdf ((eps : ℝ) : EReal) = b.cdf ((0 : ℝ) : EReal)) :
    IsDensity (volume + Measure.dirac 0) (hurdleLaw b.law psi) (hurdlePdf b psi) := by
  classical
  obtain ⟨hpm, hlaw⟩ := b.continuous_law hd
  have ht := hurdle_tail b
  have hpos := hb.pos
  refine ⟨fun x => ?_, ?_⟩
  · unfold hurdlePdf
    rw [hgap, ← ht]
    split_ifs
    · linarith
    · exact div_nonneg (mul_nonneg h0 (b.pdf_nonneg x)) hpos.le
  rw [withDensity_add_measure, hurdleLaw, add_comm]
  congr 1
  · -- the absolutely continuous part
    have hae : (fun x => ENNReal.ofReal (hurdlePdf b psi x))
        =ᵐ[volume] ENNReal.ofReal (psi / b.law.real (Set.Ioi 0)) • fun x => ENNReal.ofReal (b.pdf x) := by
      have : ∀ᵐ x : ℝ, x ≠ 0 := by simp [ae_iff]
      filter_upwards [this] with x hx
      simp only [Pi.smul_apply, smul_eq_mul]
      rw [← ENNReal.ofReal_mul (div_nonneg h0 hpos.le)]
      unfold hurdlePdf
      rw [if_neg hx, hgap, ← ht]
      congr 1; ring
    rw [withDensity_congr_ae hae, withDensity_smul _ (by fun_prop), ← hlaw]
    unfold ProbabilityTheory.cond
    have : b.law.restrict (Set.Ioi 0) = b.law := by
      apply Measure.restrict_eq_self_of_ae_mem
      have ha := b.atomless hd 0
      have : ∀ᵐ y ∂b.law, y ≠ 0 := by rw [ae_iff]; simpa using ha
      filter_upwards [hb.nonneg, this] with y h h'
      exact lt_of_le_of_ne h (Ne.symm h')
    rw [this, smul_smul, div_eq_mul_inv, ENNReal.ofReal_mul h0, ENNReal.ofReal_inv_of_pos hpos,
      ofReal_measureReal]
  · ext A hA
    rw [withDensity_apply _ hA, ← lintegral_indicator hA, lintegral_dirac,
      Measure.smul_apply, Measure.dirac_apply]
    unfold hurdlePdf
    by_cases h : (0 : ℝ) ∈ A <;> simp [h]

/-- C18, continuous case without the gap assumption: the reported total mass is
`(1 - psi) + psi (1 - F(0)) / (1 - F(eps))`. -/
theorem hurdle_total_mass (b : Base) (hd : b.discrete = false) (hb : HurdleBase b) (psi : ℝ)
    (h0 : 0 ≤ psi) (h1 : psi ≤ 1) (he : b.cdf ((eps : ℝ) : EReal) < 1) :
    ∫⁻ x, ENNReal.ofReal (hurdlePdf b psi x) ∂(volume + Measure.dirac 0)
      = ENNReal.ofReal ((1 - psi)
          + psi * ((1 - b.cdf ((0 : ℝ) : EReal)) / (1 - b.cdf ((eps : ℝ) : EReal)))) := by
  obtain ⟨hpm, hlaw⟩ := b.continuous_law hd
  have hpos : 0 < 1 - b.cdf ((eps : ℝ) : EReal) := by linarith
  have hF0 : b.cdf ((0 : ℝ) : EReal) = 0 := by
    have ha := b.atomless hd 0
    have : ∀ᵐ y ∂b.law, y ≠ 0 := by rw [ae_iff]; simpa using ha
    unfold Base.cdf
    rw [measureReal_eq_zero_iff]
    have h2 : ∀ᵐ (y : ℝ) ∂b.law, ¬ (y : EReal) ≤ ((0 : ℝ) : EReal) := by
      filter_upwards [hb.nonneg, this] with y h h'
      rw [EReal.coe_le_coe_iff]; push Not; exact lt_of_le_of_ne h (Ne.symm h')
    rw [ae_iff] at h2; simpa using h2
  have hae : (fun x => ENNReal.ofReal (hurdlePdf b psi x))
      =ᵐ[volume] fun x => ENNReal.ofReal (psi / (1 - b.cdf ((eps : ℝ) : EReal))) * ENNReal.ofReal (b.pdf x) := by
    have : ∀ᵐ x : ℝ, x ≠ 0 := by simp [ae_iff]
    filter_upwards [this] with x hx
    rw [← ENNReal.ofReal_mul (div_nonneg h0 hpos.le)]
    unfold hurdlePdf
    rw [if_neg hx]
    congr 1; ring
  have hone : ∫⁻ x, ENNReal.ofReal (b.pdf x) = 1 := by
    have := b.prob.measure_univ
    rw [hlaw, withDensity_apply _ MeasurableSet.univ] at this
    simpa using this
  rw [lintegral_add_measure, lintegral_congr_ae hae, lintegral_const_mul _ (by fun_prop), hone,
    lintegral_dirac, mul_one, add_comm, ENNReal.ofReal_add (by linarith)]
  · unfold hurdlePdf
    rw [if_pos rfl, hF0]
    congr 2; ring
  · rw [hF0]; exact mul_nonneg h0 (div_nonneg (by norm_num) hpos.le)

/-- C18, what fails: with a density that is positive near zero the total exceeds one.  Base uniform on
[0, 1], any `psi` in (0, 1]. -/
theorem hurdle_continuous_mass_exceeds_one (psi : ℝ) (h0 : 0 < psi) (h1 : psi ≤ 1) :
    ∃ b : Base, b.discrete = false ∧ HurdleBase b ∧
      1 < ∫⁻ x, ENNReal.ofReal (hurdlePdf b psi x) ∂(volume + Measure.dirac 0) := by
  have e1 : eps < 1 := by unfold eps; norm_num
  have e0 := eps_pos
  have cdfv : ∀ x : ℝ, 0 ≤ x → x ≤ 1 →
      (unif 0 1 (by norm_num)).cdf ((x : ℝ) : EReal) = x := by
    intro x hx0 hx1
    rw [Base.cdf_coe, unif_real _ _ _ _ measurableSet_Iic]
    have : Set.Iic x ∩ Set.Icc (0 : ℝ) 1 = Set.Icc 0 x := by
      ext y; simp only [Set.mem_inter_iff, Set.mem_Iic, Set.mem_Icc]
      constructor
      · rintro ⟨a, c, _⟩; exact ⟨c, a⟩
      · rintro ⟨c, a⟩; exact ⟨a, c, a.trans hx1⟩
    rw [this]; simp [hx0]
  have hb : HurdleBase (unif 0 1 (by norm_num)) := by
    constructor
    · filter_upwards [(unif 0 1 (by norm_num)).in_support] with y hy
      have h := hy.1
      change ((0 : ℝ) : EReal) ≤ (y : EReal) at h
      exact_mod_cast h
    · rw [hurdle_tail, cdfv 0 le_rfl (by norm_num)]; norm_num
  refine ⟨unif 0 1 (by norm_num), rfl, hb, ?_⟩
  rw [hurdle_total_mass _ rfl hb psi h0.le h1 (by rw [cdfv eps e0.le e1.le]; exact e1)]
  rw [cdfv 0 le_rfl (by norm_num), cdfv eps e0.le e1.le, ENNReal.one_lt_ofReal]
  have : 1 < (1 - 0) / (1 - eps) := by
    rw [lt_div_iff₀ (by linarith)]; linarith
  nlinarith

/-- C18: the cdf, for a base without mass in (0, eps] (every discrete base): right exactly at
non-negative points, and below zero only when `psi = 1`. -/
theorem hurdle_cdf_partial (b : Base) (hb : HurdleBase b) (psi : ℝ) (h0 : 0 ≤ psi) (h1 : psi ≤ 1)
    (hgap : b.cdf ((eps : ℝ) : EReal) = b.cdf ((0 : ℝ) : EReal)) (x : ℝ) :
    hurdleCdf b psi x = (hurdleLaw b.law psi).real (Set.Iic x) ↔ (0 ≤ x ∨ psi = 1) := by
  classical
  have ht := hurdle_tail b
  have hpos := hb.pos
  rw [hurdleLaw_real _ _ h0 h1]
  unfold hurdleCdf
  rcases lt_trichotomy x 0 with hx | hx | hx
  · have : Set.Ioi (0 : ℝ) ∩ Set.Iic x = ∅ := by
      ext y; simp; intro h; linarith
    rw [if_pos hx.le, if_neg (by simpa using hx), this]
    simp only [not_le.2 hx, false_or, measureReal_empty, zero_div, mul_zero, add_zero]
    constructor <;> intro h <;> linarith
  · subst hx
    have : Set.Ioi (0 : ℝ) ∩ Set.Iic 0 = ∅ := by
      ext y; simp
    simp [this]
  · have e : b.law.real (Set.Ioi 0 ∩ Set.Iic x) = b.cdf (x : EReal) - b.cdf ((0 : ℝ) : EReal) := by
      rw [← b.mass_gap (by exact_mod_cast hx.le)]
      congr 1; ext y
      simp
    rw [if_neg (not_le.2 hx), if_pos (by simpa using hx.le), e, hgap, ht]
    simp only [hx.le, true_or, iff_true]
    rw [ht] at hpos
    field_simp
    ring

/-- C18, what fails: below zero the reported cumulative probability is `1 - psi`. -/
theorem hurdle_cdf_negative (b : Base) (psi x : ℝ) (hx : x < 0) : hurdleCdf b psi x = 1 - psi := by
  unfold hurdleCdf; rw [if_pos hx.le]

/-- C18, what fails: on a continuous base with mass in (0, x] for an `x < eps`, the cdf decreases
from 0 to x. -/
theorem hurdle_cdf_not_monotone (b : Base) (psi x : ℝ) (h0 : 0 < psi) (hx : 0 < x)
    (hF : b.cdf (x : EReal) < b.cdf ((eps : ℝ) : EReal)) (he : b.cdf ((eps : ℝ) : EReal) < 1) :
    hurdleCdf b psi x < hurdleCdf b psi 0 := by
  unfold hurdleCdf
  rw [if_neg (not_le.2 hx), if_pos le_rfl]
  have h2 : 0 < 1 - b.cdf ((eps : ℝ) : EReal) := by linarith
  have : 1 < (1 - b.cdf (x : EReal)) / (1 - b.cdf ((eps : ℝ) : EReal)) := by
    rw [lt_div_iff₀ h2]; linarith
  rw [mul_div_assoc]
  nlinarith

/-- C18: on a discrete base, and on any base without mass in `(0, eps]`, the ppf is the quantile of the hurdle law,
except possibly at `q = 1 - psi` when the base has no mass at zero. -/
theorem hurdle_ppf_partial (b : Base)
    (hd : b.discrete = true ∨ b.cdf ((eps : ℝ) : EReal) = b.cdf ((0 : ℝ) : EReal)) (hb : HurdleBase b) (psi : ℝ)
    (h0 : 0 < psi) (h1 : psi ≤ 1) (q : ℝ) (hq0 : 0 < q) (hq1 : q ≤ 1)
    (hq : q ≠ 1 - psi ∨ 0 < b.cdf ((0 : ℝ) : EReal)) :
    ∃ Q, hurdlePpf b psi q = some Q ∧ IsQuantile (hurdleLaw b.law psi) q Q ∧
      (q < 1 - psi → Q = 0) := by
  classical
  have ht := hurdle_tail b
  have hpos := hb.pos
  rw [ht] at hpos
  have hIic : ∀ x : ℝ, (hurdleLaw b.law psi).real (Set.Iic x)
      = if 0 ≤ x then (1 - psi) + psi * ((b.cdf (x : EReal) - b.cdf ((0 : ℝ) : EReal))
          / (1 - b.cdf ((0 : ℝ) : EReal))) else 0 := by
    intro x
    rw [hurdleLaw_real _ _ h0.le h1, ht]
    by_cases hx : 0 ≤ x
    · have e : b.law.real (Set.Ioi 0 ∩ Set.Iic x) = b.cdf (x : EReal) - b.cdf ((0 : ℝ) : EReal) := by
        rw [← b.mass_gap (by exact_mod_cast hx)]
        congr 1; ext y
        simp
      rw [e, if_pos (by simpa using hx), if_pos hx]
    · have : Set.Ioi (0 : ℝ) ∩ Set.Iic x = ∅ := by
        ext y; simp; intro h; linarith
      rw [this, if_neg (by simpa using hx), if_neg hx]
      simp
  have hneg : ∀ x : ℝ, x < 0 → b.cdf (x : EReal) = 0 := by
    intro x hx
    unfold Base.cdf
    rw [measureReal_eq_zero_iff]
    have h2 : ∀ᵐ (y : ℝ) ∂b.law, ¬ (y : EReal) ≤ (x : EReal) := by
      filter_upwards [hb.nonneg] with y h
      rw [EReal.coe_le_coe_iff]; push Not; linarith
    rw [ae_iff] at h2; simpa using h2
  have hlow : b.cdf (((if b.discrete = true then (0 : ℝ) else eps : ℝ)) : EReal) = b.cdf ((0 : ℝ) : EReal) := by
    rcases hd with hd | hd
    · rw [if_pos hd]
    · split
      · rfl
      · exact hd
  unfold hurdlePpf
  simp only [hlow]
  rw [if_neg (by push Not; exact ⟨hq0.le, hq1⟩)]
  refine ⟨_, rfl, ?_, ?_⟩
  · intro x
    rw [hIic]
    by_cases hge : q ≥ 1 - psi
    · rw [if_pos hge]
      set F0 := b.cdf ((0 : ℝ) : EReal) with hF0
      have hF0n : 0 ≤ F0 := b.cdf_nonneg _
      have hr : 0 ≤ (q - (1 - psi)) / psi := div_nonneg (by linarith) h0.le
      have hr1 : (q - (1 - psi)) / psi ≤ 1 := by rw [div_le_one h0]; linarith
      have hq' : F0 + (q - (1 - psi)) * (1 - F0) / psi = F0 + (q - (1 - psi)) / psi * (1 - F0) := by
        ring
      rw [hq']
      have hle : F0 + (q - (1 - psi)) / psi * (1 - F0) ≤ 1 := by nlinarith
      have hgt : 0 < F0 + (q - (1 - psi)) / psi * (1 - F0) := by
        rcases hq with hne | h
        · have : 0 < (q - (1 - psi)) / psi :=
            div_pos (by rcases lt_or_eq_of_le hge with h | h; linarith; exact absurd h.symm hne) h0
          nlinarith [mul_pos this hpos]
        · nlinarith [mul_nonneg hr hpos.le]
      rw [b.ppf_inverse _ hgt hle x, ← b.cdf_coe]
      by_cases hx : 0 ≤ x
      · rw [if_pos hx]
        have h3 : q = (1 - psi) + psi * ((q - (1 - psi)) / psi) := by field_simp; ring
        generalize (q - (1 - psi)) / psi = r at *
        constructor
        · intro h
          rw [h3]
          have : r ≤ (b.cdf (x : EReal) - F0) / (1 - F0) := by
            rw [le_div_iff₀ hpos]; linarith
          nlinarith
        · intro h
          rw [h3] at h
          have : r ≤ (b.cdf (x : EReal) - F0) / (1 - F0) := by
            by_contra hlt; push Not at hlt; nlinarith
          rw [le_div_iff₀ hpos] at this; linarith
      · rw [if_neg hx]
        push Not at hx
        rw [hneg x hx]
        constructor <;> intro h <;> linarith
    · rw [if_neg hge]
      push Not at hge
      by_cases hx : 0 ≤ x
      · rw [if_pos hx]
        refine ⟨fun _ => ?_, fun _ => by exact_mod_cast hx⟩
        have := b.cdf_mono (x := ((0 : ℝ) : EReal)) (y := (x : EReal)) (by exact_mod_cast hx)
        have : 0 ≤ psi * ((b.cdf (x : EReal) - b.cdf ((0 : ℝ) : EReal))
          / (1 - b.cdf ((0 : ℝ) : EReal))) :=
          mul_nonneg h0.le (div_nonneg (by linarith) hpos.le)
        linarith
      · rw [if_neg hx]
        constructor
        · intro h; exact absurd (by exact_mod_cast h) hx
        · intro h; linarith
  · intro h
    rw [if_neg (by push Not; exact h)]

/-- C18: probabilities outside [0, 1] give `nan`. -/
theorem hurdle_ppf_nan (b : Base) (psi q : ℝ) : hurdlePpf b psi q = none ↔ q < 0 ∨ 1 < q := by
  unfold hurdlePpf
  dsimp only
  by_cases h : q < 0 ∨ q > 1
  · simp [h]
  · simp only [h, if_false]; simp

/-- C18: `logpdf` is the logarithm of `pdf`. -/
theorem hurdle_logpdf (b : Base) (psi : ℝ) (h0 : 0 ≤ psi) (x : ℝ)
    (he : b.cdf ((eps : ℝ) : EReal) < 1) :
    hurdleLogpdf b psi x = logOf (hurdlePdf b psi x) := by
  have h2 : 0 < 1 - b.cdf ((eps : ℝ) : EReal) := by linarith
  unfold hurdleLogpdf hurdlePdf
  by_cases hx : x = 0
  · simp [hx]
  · rw [if_neg hx, if_neg hx]
    unfold Base.logpdf logOf
    by_cases hp : psi = 0
    · simp [hp]
    · by_cases hb : b.pdf x = 0
      · simp [hb]
      · simp only [hp, hb, if_false, Option.bind_some, Option.map_some]
        rw [if_neg (by positivity), Real.log_div (by positivity) h2.ne', Real.log_mul hp hb]

/-- the hypotheses are met: a die on {0, …, 5} -/
example : HurdleBase (dice 5) ∧ 0 < (dice 5).cdf ((0 : ℝ) : EReal) := by
  classical
  refine ⟨⟨diceLaw_ae 5 _ fun k _ => by positivity, ?_⟩, ?_⟩
  · show 0 < (diceLaw 5).real _
    rw [diceLaw_real]; norm_num [Finset.sum_range_succ]
  · rw [Base.cdf_coe]; show 0 < (diceLaw 5).real _
    rw [diceLaw_real]; norm_num [Finset.sum_range_succ]

end Verif.Props
