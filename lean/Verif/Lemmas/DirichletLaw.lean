import Verif.Lemmas.GammaRatio
import Mathlib.MeasureTheory.Measure.Lebesgue.EqHaar
import Mathlib.MeasureTheory.Constructions.Pi
import Mathlib.Probability.Independence.InfinitePi

/-!
# Normalised independent gamma variables: joint density and marginals
-/

namespace Verif.GammaRatio
open MeasureTheory ProbabilityTheory ENNReal

/-- density of the first `n` of `n + 1` coordinates of a Dirichlet vector -/
noncomputable def dirPDFReal {n : ℕ} (α : Fin (n + 1) → ℝ) (x : Fin n → ℝ) : ℝ :=
  open Classical in
  if (∀ i, 0 < x i) ∧ ∑ i, x i < 1 then
    Real.Gamma (∑ i, α i) / (∏ i, Real.Gamma (α i)) * (∏ i, x i ^ (α i.castSucc - 1)) *
      (1 - ∑ i, x i) ^ (α (Fin.last n) - 1)
  else 0

noncomputable def dirPDF {n : ℕ} (α : Fin (n + 1) → ℝ) (x : Fin n → ℝ) : ℝ≥0∞ := ENNReal.ofReal (dirPDFReal α x)

theorem measurable_dirPDF {n : ℕ} (α : Fin (n + 1) → ℝ) : Measurable (dirPDF α) := by
  refine Measurable.ennreal_ofReal ?_
  unfold dirPDFReal
  have h1 : MeasurableSet {x : Fin n → ℝ | ∀ i, 0 < x i} := by
    rw [Set.setOf_forall]
    exact MeasurableSet.iInter fun i => measurableSet_lt measurable_const (measurable_pi_apply i)
  have h2 : MeasurableSet {x : Fin n → ℝ | ∑ i, x i < 1} :=
    measurableSet_lt (Finset.measurable_sum _ fun i _ => measurable_pi_apply i) measurable_const
  refine Measurable.ite (h1.inter h2) ?_ measurable_const
  fun_prop

theorem lintegral_scale_pi {n : ℕ} (f : (Fin n → ℝ) → ℝ≥0∞) (hf : Measurable f) {s : ℝ} (hs : 0 < s) :
    ∫⁻ x, f x = ENNReal.ofReal (s ^ n) * ∫⁻ u : Fin n → ℝ, f (s • u) := by
  have h := Measure.map_addHaar_smul (volume : Measure (Fin n → ℝ)) hs.ne'
  simp only [Module.finrank_fintype_fun_eq_card, Fintype.card_fin] at h
  have h2 : ∫⁻ u : Fin n → ℝ, f (s • u) = ENNReal.ofReal |(s ^ n)⁻¹| * ∫⁻ x, f x := by
    rw [← lintegral_map (μ := volume) (g := fun u : Fin n → ℝ => s • u) hf (by fun_prop), h, lintegral_smul_measure]
    rfl
  rw [h2, ← mul_assoc, ← ENNReal.ofReal_mul (by positivity), abs_of_pos (by positivity),
    mul_inv_cancel₀ (by positivity), ENNReal.ofReal_one, one_mul]

/-- the densities, away from the edges -/
theorem dir_product {n : ℕ} (α : Fin (n + 2) → ℝ) (hα : ∀ i, 0 < α i) {u : ℝ} (h0 : u ≠ 0) (h1 : u < 1)
    (y : Fin n → ℝ) :
    betaPDF (α 0) (∑ i : Fin (n + 1), α i.succ) u *
      dirPDF (fun i => α i.succ) y =
    ENNReal.ofReal ((1 - u) ^ n) * dirPDF α (Fin.cons u ((1 - u) • y)) := by
  have h1u : 0 < 1 - u := by linarith
  rcases lt_or_gt_of_ne h0 with hu | hu
  · rw [betaPDF_eq_zero_of_nonpos hu.le]
    have : dirPDF α (Fin.cons u ((1 - u) • y)) = 0 := by
      unfold dirPDF dirPDFReal
      rw [if_neg]; simp
      rintro ⟨h, -⟩
      have := h 0
      simp at this; linarith
    rw [this]; simp
  rw [betaPDF_of_pos_lt_one hu h1]
  have hcond : ((∀ i, 0 < (Fin.cons u ((1 - u) • y) : Fin (n + 1) → ℝ) i) ∧
      ∑ i, (Fin.cons u ((1 - u) • y) : Fin (n + 1) → ℝ) i < 1) ↔ (∀ i, 0 < y i) ∧ ∑ i, y i < 1 := by
    rw [Fin.forall_fin_succ, Fin.sum_univ_succ]
    simp only [Fin.cons_zero, Fin.cons_succ, Pi.smul_apply, smul_eq_mul, ← Finset.mul_sum]
    constructor
    · rintro ⟨⟨-, h⟩, h'⟩
      refine ⟨fun i => ?_, ?_⟩
      · have := h i
        by_contra hc
        nlinarith
      · by_contra hc
        nlinarith
    · rintro ⟨h, h'⟩
      refine ⟨⟨hu, fun i => mul_pos h1u (h i)⟩, ?_⟩
      nlinarith
  unfold dirPDF dirPDFReal
  rw [if_congr hcond rfl rfl]
  split_ifs with hc
  · obtain ⟨hy, hs⟩ := hc
    have hT : 0 < ∑ i : Fin (n + 1), α i.succ := Finset.sum_pos (fun i _ => hα _) Finset.univ_nonempty
    have hB := beta_pos (hα 0) hT
    rw [← ENNReal.ofReal_mul (by positivity), ← ENNReal.ofReal_mul (by positivity)]
    congr 1
    have hG : ∀ i, 0 < Real.Gamma (α i) := fun i => Real.Gamma_pos_of_pos (hα i)
    have hGT := Real.Gamma_pos_of_pos hT
    have hP : 0 < ∏ i : Fin (n + 1), Real.Gamma (α i.succ) := Finset.prod_pos fun i _ => hG _
    rw [Fin.sum_univ_succ α, Fin.prod_univ_succ (fun i => Real.Gamma (α i)), beta]
    rw [Fin.prod_univ_succ (fun i : Fin (n + 1) => (Fin.cons u ((1 - u) • y) : Fin (n + 1) → ℝ) i ^ (α i.castSucc - 1)),
      Fin.sum_univ_succ (fun i : Fin (n + 1) => (Fin.cons u ((1 - u) • y) : Fin (n + 1) → ℝ) i)]
    simp only [Fin.cons_zero, Fin.cons_succ, Pi.smul_apply, smul_eq_mul, ← Finset.mul_sum, Fin.castSucc_zero,
      Fin.succ_castSucc, Fin.succ_last]
    have e1 : (1 - (u + (1 - u) * ∑ i, y i)) = (1 - u) * (1 - ∑ i, y i) := by ring
    rw [e1, Real.mul_rpow h1u.le (by linarith)]
    have e2 : ∏ i, ((1 - u) * y i) ^ (α i.succ.castSucc - 1) =
        (1 - u) ^ (∑ i : Fin n, (α i.succ.castSucc - 1)) * ∏ i, y i ^ (α i.succ.castSucc - 1) := by
      rw [Real.rpow_sum_of_pos h1u, ← Finset.prod_mul_distrib]
      exact Finset.prod_congr rfl fun i _ => Real.mul_rpow h1u.le (hy i).le
    rw [e2]
    have e3 : (1 - u) ^ (∑ i : Fin (n + 1), α i.succ - 1) = (1 - u) ^ n *
        ((1 - u) ^ (∑ i : Fin n, (α i.succ.castSucc - 1)) * (1 - u) ^ (α (Fin.last (n + 1)) - 1)) := by
      rw [← Real.rpow_natCast, ← Real.rpow_add h1u, ← Real.rpow_add h1u]
      congr 1
      rw [Fin.sum_univ_castSucc, Finset.sum_sub_distrib]
      simp
      ring
    rw [e3]
    field_simp
  · simp

/-- the proportions and the total of `n + 1` numbers; the last proportion is left out -/
noncomputable def propTotal {n : ℕ} (g : Fin (n + 1) → ℝ) : (Fin n → ℝ) × ℝ :=
  (fun i => g i.castSucc / ∑ j, g j, ∑ j, g j)

theorem measurable_propTotal {n : ℕ} : Measurable (propTotal (n := n)) := by
  unfold propTotal
  fun_prop

/-- one more coordinate: from a Beta proportion and the smaller Dirichlet vector -/
theorem dir_step {n : ℕ} (α : Fin (n + 2) → ℝ) (hα : ∀ i, 0 < α i) (f : (Fin (n + 1) → ℝ) → ℝ≥0∞) (hf : Measurable f) :
    ∫⁻ y, dirPDF (fun i => α i.succ) y * ∫⁻ u, betaPDF (α 0) (∑ i : Fin (n + 1), α i.succ) u *
      f (Fin.cons u ((1 - u) • y)) = ∫⁻ x, dirPDF α x * f x := by
  have md := measurable_dirPDF α
  have md' := measurable_dirPDF fun i : Fin (n + 1) => α i.succ
  have mb := measurable_betaPDF (α 0) (∑ i : Fin (n + 1), α i.succ)
  have mc : Measurable fun p : ℝ × (Fin n → ℝ) => (Fin.cons p.1 p.2 : Fin (n + 1) → ℝ) := by
    refine measurable_pi_iff.2 fun i => ?_
    refine Fin.cases ?_ (fun j => ?_) i
    · simpa using measurable_fst
    · simpa [Function.comp_def] using (measurable_pi_apply j).comp (measurable_snd (α := ℝ) (β := Fin n → ℝ))
  have mc' : Measurable fun p : (Fin n → ℝ) × ℝ => (Fin.cons p.2 ((1 - p.2) • p.1) : Fin (n + 1) → ℝ) :=
    mc.comp (f := fun p : (Fin n → ℝ) × ℝ => (p.2, (1 - p.2) • p.1)) (by fun_prop)
  have e1 : ∫⁻ x, dirPDF α x * f x = ∫⁻ u, ∫⁻ y, dirPDF α (Fin.cons u y) * f (Fin.cons u y) := by
    have hm := (volume_preserving_piFinSuccAbove (fun _ : Fin (n + 1) => ℝ) 0).symm
    rw [← hm.lintegral_comp (by fun_prop)]
    have : (volume : Measure (ℝ × (Fin n → ℝ))) = (volume : Measure ℝ).prod volume := rfl
    rw [this, lintegral_prod]
    · simp [MeasurableEquiv.piFinSuccAbove_symm_apply]
      rfl
    · refine Measurable.aemeasurable ?_
      exact (md.mul hf).comp (MeasurableEquiv.measurable _)
  have step1 : ∀ y, dirPDF (fun i : Fin (n + 1) => α i.succ) y * ∫⁻ u, betaPDF (α 0) (∑ i : Fin (n + 1), α i.succ) u *
      f (Fin.cons u ((1 - u) • y)) = ∫⁻ u, dirPDF (fun i : Fin (n + 1) => α i.succ) y *
        (betaPDF (α 0) (∑ i : Fin (n + 1), α i.succ) u * f (Fin.cons u ((1 - u) • y))) := by
    intro y
    rw [lintegral_const_mul]
    exact mb.mul (hf.comp (mc'.comp (measurable_prodMk_left (x := y))))
  simp only [step1]
  rw [lintegral_lintegral_swap, e1]
  · have nz : ∀ c : ℝ, ∀ᵐ s : ℝ, s ≠ c := fun c => by simp [ae_iff, measure_singleton]
    refine lintegral_congr_ae ?_
    filter_upwards [nz 0, nz 1] with u h0 h1
    rcases lt_or_gt_of_ne h1 with h1 | h1
    · rw [lintegral_scale_pi (fun y => dirPDF α (Fin.cons u y) * f (Fin.cons u y)) _ (s := 1 - u) (by linarith),
        ← lintegral_const_mul]
      · refine lintegral_congr fun y => ?_
        rw [← mul_assoc, mul_comm (dirPDF _ y), dir_product α hα h0 h1, mul_assoc]
      · exact (md.mul hf).comp (mc'.comp (measurable_prodMk_right (y := u)))
      · exact (md.mul hf).comp (mc.comp (measurable_prodMk_left (x := u)))
    · rw [betaPDF_eq_zero_of_one_le h1.le]
      simp only [zero_mul, mul_zero, lintegral_zero]
      symm
      rw [lintegral_eq_zero_iff]
      · filter_upwards with y
        have : dirPDF α (Fin.cons u y) = 0 := by
          unfold dirPDF dirPDFReal
          rw [if_neg]; simp
          rintro ⟨h, h'⟩
          rw [Fin.sum_univ_succ] at h'
          simp only [Fin.cons_zero, Fin.cons_succ] at h'
          have : 0 ≤ ∑ i, y i := Finset.sum_nonneg fun i _ => by simpa using (h i.succ).le
          linarith
        simp [this]
      · exact (md.mul hf).comp (mc.comp (measurable_prodMk_left (x := u)))
  · refine Measurable.aemeasurable ?_
    exact (md'.comp measurable_fst).mul ((mb.comp measurable_snd).mul (hf.comp mc'))

theorem measurable_consPair {n : ℕ} :
    Measurable fun p : ℝ × (Fin n → ℝ) => (Fin.cons p.1 p.2 : Fin (n + 1) → ℝ) := by
  refine measurable_pi_iff.2 fun i => ?_
  refine Fin.cases ?_ (fun j => ?_) i
  · simpa using measurable_fst
  · simpa [Function.comp_def] using (measurable_pi_apply j).comp (measurable_snd (α := ℝ) (β := Fin n → ℝ))

theorem gamma_ae_pos (a : ℝ) : ∀ᵐ x ∂gammaMeasure a 1, 0 < x := by
  unfold gammaMeasure
  rw [ae_withDensity_iff (measurable_gammaPDF a 1)]
  have nz : ∀ᵐ s : ℝ, s ≠ 0 := by simp [ae_iff, measure_singleton]
  filter_upwards [nz] with x hx h
  rcases lt_or_gt_of_ne hx with h' | h'
  · exact absurd (gammaPDF_of_neg h') h
  · exact h'

noncomputable def gammas {n : ℕ} (α : Fin n → ℝ) : Measure (Fin n → ℝ) := Measure.pi fun i => gammaMeasure (α i) 1

/-- the proportions of independent gamma variables have the Dirichlet density, and are independent of the total -/
theorem dir_law (n : ℕ) (α : Fin (n + 1) → ℝ) (hα : ∀ i, 0 < α i) :
    (gammas α).map propTotal = (volume.withDensity (dirPDF α)).prod (gammaMeasure (∑ i, α i) 1) := by
  induction n with
  | zero =>
    have hP : ∀ i, IsProbabilityMeasure (gammaMeasure (α i) 1) := fun i =>
      isProbabilityMeasure_gammaMeasure (hα i) one_pos
    have hd : (volume : Measure (Fin 0 → ℝ)).withDensity (dirPDF α) = Measure.dirac default := by
      have : dirPDF α = fun _ => 1 := by
        ext x
        have := (Real.Gamma_pos_of_pos (hα 0)).ne'
        simp [dirPDF, dirPDFReal, this]
      rw [this, show (fun _ : Fin 0 → ℝ => (1 : ℝ≥0∞)) = 1 from rfl, withDensity_one, volume_pi, Measure.pi_of_empty _ default]
    rw [hd]
    have hs : (gammas α).map (fun g => ∑ j, g j) = gammaMeasure (∑ i, α i) 1 := by
      have := (measurePreserving_eval (fun i => gammaMeasure (α i) 1) 0).map_eq
      simpa [gammas] using this
    have := isProbabilityMeasure_gammaMeasure (a := ∑ i, α i) (by simpa using hα 0) one_pos
    rw [Measure.dirac_prod, ← hs, Measure.map_map (by fun_prop) (by fun_prop)]
    congr 1
    ext g i
    · exact i.elim0
    · simp [propTotal]
  | succ n ih =>
    have hP : ∀ i, IsProbabilityMeasure (gammaMeasure (α i) 1) := fun i =>
      isProbabilityMeasure_gammaMeasure (hα i) one_pos
    have ht : ∀ i : Fin (n + 1), 0 < α i.succ := fun i => hα _
    have hT : 0 < ∑ i : Fin (n + 1), α i.succ := Finset.sum_pos (fun i _ => hα _) Finset.univ_nonempty
    have ih := ih (fun i => α i.succ) ht
    have := isProbabilityMeasure_gammaMeasure hT one_pos
    have := isProbabilityMeasureBeta (hα 0) hT
    have hS : 0 < ∑ i, α i := Finset.sum_pos (fun i _ => hα _) Finset.univ_nonempty
    have := isProbabilityMeasure_gammaMeasure hS one_pos
    have mb := measurable_betaPDF (α 0) (∑ i : Fin (n + 1), α i.succ)
    have md := measurable_dirPDF α
    have md' := measurable_dirPDF fun i : Fin (n + 1) => α i.succ
    have mp := measurable_propTotal (n := n)
    have mp' := measurable_propTotal (n := n + 1)
    have hprod := gamma_ratio (hα 0) hT
    set Dt := (volume : Measure (Fin n → ℝ)).withDensity (dirPDF fun i => α i.succ) with hDt
    set γT := gammaMeasure (∑ i : Fin (n + 1), α i.succ) 1
    set γS := gammaMeasure (∑ i, α i) 1 with hγS
    have hsum : α 0 + ∑ i : Fin (n + 1), α i.succ = ∑ i, α i := (Fin.sum_univ_succ α).symm
    rw [hsum] at hprod
    have hgp : IsProbabilityMeasure (gammas fun i : Fin (n + 1) => α i.succ) := by
      unfold gammas; infer_instance
    have mc := measurable_consPair (n := n)
    refine Measure.ext_of_lintegral _ fun f hf => ?_
    have mF : Measurable fun q : ℝ × (Fin n → ℝ) × ℝ =>
        f (Fin.cons (q.1 / (q.1 + q.2.2)) ((1 - q.1 / (q.1 + q.2.2)) • q.2.1), q.1 + q.2.2) := by
      refine hf.comp (Measurable.prodMk (mc.comp (f := fun q : ℝ × (Fin n → ℝ) × ℝ =>
        (q.1 / (q.1 + q.2.2), (1 - q.1 / (q.1 + q.2.2)) • q.2.1)) (by fun_prop)) (by fun_prop))
    have hpos : ∀ᵐ g' ∂(gammas fun i : Fin (n + 1) => α i.succ), 0 < ∑ j, g' j := by
      have h1 : ∀ᵐ q ∂(Dt.prod γT), 0 < q.2 := by
        rw [Measure.ae_prod_iff_ae_ae (measurableSet_lt measurable_const measurable_snd)]
        exact Filter.Eventually.of_forall fun y => gamma_ae_pos _
      rw [← ih] at h1
      exact ae_of_ae_map mp.aemeasurable h1
    have hg0 : gammas α = ((gammaMeasure (α 0) 1).prod (gammas fun i : Fin (n + 1) => α i.succ)).map
        (fun p => (Fin.cons p.1 p.2 : Fin (n + 2) → ℝ)) := by
      have := (measurePreserving_piFinSuccAbove (fun i => gammaMeasure (α i) 1) 0).symm.map_eq
      rw [gammas, ← this]
      congr 1
      · ext p i
        refine Fin.cases ?_ (fun j => ?_) i <;> simp [MeasurableEquiv.piFinSuccAbove_symm_apply]
    have hae : ∀ᵐ p ∂((gammaMeasure (α 0) 1).prod (gammas fun i : Fin (n + 1) => α i.succ)),
        propTotal (Fin.cons p.1 p.2 : Fin (n + 2) → ℝ) =
          (Fin.cons (p.1 / (p.1 + (propTotal p.2).2)) ((1 - p.1 / (p.1 + (propTotal p.2).2)) • (propTotal p.2).1),
            p.1 + (propTotal p.2).2) := by
      have h1 : ∀ᵐ p ∂((gammaMeasure (α 0) 1).prod (gammas fun i : Fin (n + 1) => α i.succ)), 0 < p.1 := by
        have : ((gammaMeasure (α 0) 1).prod (gammas fun i : Fin (n + 1) => α i.succ)).map Prod.fst =
          gammaMeasure (α 0) 1 := by rw [Measure.map_fst_prod]; simp
        exact ae_of_ae_map measurable_fst.aemeasurable (by rw [this]; exact gamma_ae_pos _)
      have h2 : ∀ᵐ p ∂((gammaMeasure (α 0) 1).prod (gammas fun i : Fin (n + 1) => α i.succ)), 0 < ∑ j, p.2 j := by
        have : ((gammaMeasure (α 0) 1).prod (gammas fun i : Fin (n + 1) => α i.succ)).map Prod.snd =
          gammas fun i : Fin (n + 1) => α i.succ := by rw [Measure.map_snd_prod]; simp
        exact ae_of_ae_map (p := fun q : Fin (n + 1) → ℝ => 0 < ∑ j, q j) measurable_snd.aemeasurable
          (by rw [this]; exact hpos)
      filter_upwards [h1, h2] with p hx hs
      have hne : p.1 + ∑ j, p.2 j ≠ 0 := by positivity
      refine Prod.ext ?_ ?_
      · ext i
        refine Fin.cases ?_ (fun j => ?_) i
        · simp [propTotal, Fin.sum_univ_succ]
        · simp only [propTotal, Fin.castSucc_succ, Fin.cons_succ, Pi.smul_apply, smul_eq_mul]
          rw [Fin.sum_univ_succ]
          simp only [Fin.cons_zero, Fin.cons_succ]
          field_simp
          ring
      · simp [propTotal, Fin.sum_univ_succ]
    rw [lintegral_map hf mp', hg0, lintegral_map (f := fun a => f (propTotal a)) (hf.comp mp') (measurable_consPair (n := n + 1))]
    have hae' : ∀ᵐ p ∂((gammaMeasure (α 0) 1).prod (gammas fun i : Fin (n + 1) => α i.succ)),
        f (propTotal (Fin.cons p.1 p.2 : Fin (n + 2) → ℝ)) =
          f (Fin.cons (p.1 / (p.1 + (propTotal p.2).2)) ((1 - p.1 / (p.1 + (propTotal p.2).2)) • (propTotal p.2).1),
            p.1 + (propTotal p.2).2) := hae.mono fun p hp => congrArg f hp
    rw [lintegral_congr_ae hae']
    rw [lintegral_prod (fun p : ℝ × (Fin (n + 1) → ℝ) =>
      f (Fin.cons (p.1 / (p.1 + (propTotal p.2).2)) ((1 - p.1 / (p.1 + (propTotal p.2).2)) • (propTotal p.2).1),
            p.1 + (propTotal p.2).2)) (mF.comp (measurable_fst.prodMk (mp.comp measurable_snd))).aemeasurable]
    have e1 : ∀ x, ∫⁻ g', f (Fin.cons (x / (x + (propTotal g').2)) ((1 - x / (x + (propTotal g').2)) •
        (propTotal g').1), x + (propTotal g').2) ∂(gammas fun i : Fin (n + 1) => α i.succ) =
        ∫⁻ y, ∫⁻ s, f (Fin.cons (x / (x + s)) ((1 - x / (x + s)) • y), x + s) ∂γT ∂Dt := by
      intro x
      rw [← lintegral_map (f := fun q : (Fin n → ℝ) × ℝ => f (Fin.cons (x / (x + q.2)) ((1 - x / (x + q.2)) • q.1), x + q.2))
        (mF.comp (measurable_prodMk_left (x := x))) mp, ih, lintegral_prod
        (fun q : (Fin n → ℝ) × ℝ => f (Fin.cons (x / (x + q.2)) ((1 - x / (x + q.2)) • q.1), x + q.2))
        (mF.comp (measurable_prodMk_left (x := x))).aemeasurable]
    simp only [e1]
    rw [lintegral_lintegral_swap]
    · have e2 : ∀ y, ∫⁻ x, ∫⁻ s, f (Fin.cons (x / (x + s)) ((1 - x / (x + s)) • y), x + s) ∂γT ∂(gammaMeasure (α 0) 1) =
          ∫⁻ u, betaPDF (α 0) (∑ i : Fin (n + 1), α i.succ) u * ∫⁻ s, f (Fin.cons u ((1 - u) • y), s) ∂γS := by
        intro y
        have mh : Measurable fun p : ℝ × ℝ => f (Fin.cons p.1 ((1 - p.1) • y), p.2) :=
          hf.comp (Measurable.prodMk (mc.comp (f := fun p : ℝ × ℝ => (p.1, (1 - p.1) • y)) (by fun_prop)) (by fun_prop))
        have := congrArg (fun μ => ∫⁻ p, f (Fin.cons p.1 ((1 - p.1) • y), p.2) ∂μ) hprod
        rw [lintegral_map mh (by fun_prop), lintegral_prod (fun a : ℝ × ℝ => f (Fin.cons (a.1 / (a.1 + a.2), a.1 + a.2).1
            ((1 - (a.1 / (a.1 + a.2), a.1 + a.2).1) • y), (a.1 / (a.1 + a.2), a.1 + a.2).2))
            (mh.comp (f := fun a : ℝ × ℝ => (a.1 / (a.1 + a.2), a.1 + a.2)) (by fun_prop)).aemeasurable,
          lintegral_prod _ mh.aemeasurable] at this
        rw [this, betaMeasure, lintegral_withDensity_eq_lintegral_mul _ mb (Measurable.lintegral_prod_right' mh)]
        rfl
      simp only [e2]
      have mG : Measurable fun z : Fin (n + 1) → ℝ => ∫⁻ s, f (z, s) ∂γS := Measurable.lintegral_prod_right' hf
      have hd := dir_step α hα (fun z => ∫⁻ s, f (z, s) ∂γS) mG
      rw [hDt, lintegral_withDensity_eq_lintegral_mul _ md', lintegral_prod _ hf.aemeasurable,
        lintegral_withDensity_eq_lintegral_mul _ md mG]
      · exact hd
      · exact Measurable.lintegral_prod_right' (f := fun p : (Fin n → ℝ) × ℝ =>
          betaPDF (α 0) (∑ i : Fin (n + 1), α i.succ) p.2 * ∫⁻ s, f (Fin.cons p.2 ((1 - p.2) • p.1), s) ∂γS)
          ((mb.comp measurable_snd).mul (mG.comp (mc.comp (f := fun p : (Fin n → ℝ) × ℝ => (p.2, (1 - p.2) • p.1))
            (by fun_prop))))
    · refine Measurable.aemeasurable ?_
      exact Measurable.lintegral_prod_right' (f := fun p : (ℝ × (Fin n → ℝ)) × ℝ =>
        f (Fin.cons (p.1.1 / (p.1.1 + p.2)) ((1 - p.1.1 / (p.1.1 + p.2)) • p.1.2), p.1.1 + p.2))
        (mF.comp (f := fun p : (ℝ × (Fin n → ℝ)) × ℝ => (p.1.1, (p.1.2, p.2))) (by fun_prop))

end Verif.GammaRatio
