import Verif.Model.Joint
import Verif.Spec.Multivariate
import Verif.Lemmas.DirichletLaw
import Verif.Props.Contours
import Mathlib.Probability.Distributions.Gaussian.Multivariate
import Mathlib.Analysis.Complex.ExponentialBounds

/-!
# C100: the laws behind the plots of multivariate distributions
-/

namespace Verif.Props
open Verif Verif.Multivariate Verif.Contours Verif.Joint Verif.Spec Verif.GammaRatio
open MeasureTheory ProbabilityTheory ENNReal

/-! ### Dirichlet: marginals -/

private theorem gammas_prob {n : ℕ} (alpha : Fin n → ℝ) (h : ∀ i, 0 < alpha i) :
    IsProbabilityMeasure (gammas alpha) := by
  have : ∀ i, IsProbabilityMeasure (gammaMeasure (alpha i) 1) := fun i =>
    isProbabilityMeasure_gammaMeasure (h i) one_pos
  unfold gammas; infer_instance

private theorem gammas_pos {n : ℕ} (alpha : Fin n → ℝ) (h : ∀ i, 0 < alpha i) :
    ∀ᵐ g ∂gammas alpha, ∀ i, 0 < g i := by
  have : ∀ i, IsProbabilityMeasure (gammaMeasure (alpha i) 1) := fun i =>
    isProbabilityMeasure_gammaMeasure (h i) one_pos
  rw [ae_all_iff]
  intro i
  have := (measurePreserving_eval (fun i => gammaMeasure (alpha i) 1) i).map_eq
  refine ae_of_ae_map (f := fun g : Fin n → ℝ => g i) (p := fun x : ℝ => 0 < x) (measurable_pi_apply i).aemeasurable ?_
  change ∀ᵐ x ∂((Measure.pi fun i => gammaMeasure (alpha i) 1).map (Function.eval i)), 0 < x
  rw [this]
  exact gamma_ae_pos _

private theorem measurable_prop {n : ℕ} : Measurable fun (g : Fin n → ℝ) (i : Fin n) => g i / ∑ j, g j := by
  fun_prop

/-- C100: a Dirichlet vector has positive coordinates that add up to one. -/
theorem dirichlet_coordinates {n : ℕ} (alpha : Fin n → ℝ) (hn : 0 < n) (h : ∀ i, 0 < alpha i) :
    IsProbabilityMeasure (dirichletLaw alpha) ∧
      ∀ᵐ x ∂dirichletLaw alpha, (∀ i, 0 < x i) ∧ ∑ i, x i = 1 := by
  have := gammas_prob alpha h
  have : Nonempty (Fin n) := ⟨⟨0, hn⟩⟩
  refine ⟨Measure.isProbabilityMeasure_map (μ := gammas alpha) measurable_prop.aemeasurable, ?_⟩
  have hm1 : MeasurableSet {x : Fin n → ℝ | ∀ i, 0 < x i} := by
    rw [Set.ofPred_forall]
    exact MeasurableSet.iInter fun i => measurableSet_lt measurable_const (measurable_pi_apply i)
  have hm2 : MeasurableSet {x : Fin n → ℝ | ∑ i, x i = 1} :=
    measurableSet_eq_fun (Finset.measurable_sum _ fun i _ => measurable_pi_apply i) measurable_const
  rw [dirichletLaw, ae_map_iff (p := fun x : Fin n → ℝ => (∀ i, 0 < x i) ∧ ∑ i, x i = 1)
    measurable_prop.aemeasurable (hm1.inter hm2)]
  change ∀ᵐ g ∂gammas alpha, _
  filter_upwards [gammas_pos alpha h] with g hg
  have hs : 0 < ∑ j, g j := Finset.sum_pos (fun i _ => hg i) Finset.univ_nonempty
  exact ⟨fun i => div_pos (hg i) hs, by rw [← Finset.sum_div, div_self hs.ne']⟩

/-- C100: the Beta drawn for a coordinate of a Dirichlet is the law of that coordinate, in every dimension from two on. -/
theorem dirichlet_marginal_law {n : ℕ} (alpha : Fin n → ℝ) (hn : 2 ≤ n) (h : ∀ i, 0 < alpha i) (i : Fin n) :
    (dirichletLaw alpha).map (fun x => x i) =
      betaMeasure (dirichletMarginal alpha i).1 (dirichletMarginal alpha i).2 := by
  have := gammas_prob alpha h
  have hP : ∀ i, IsProbabilityMeasure (gammaMeasure (alpha i) 1) := fun i =>
    isProbabilityMeasure_gammaMeasure (h i) one_pos
  rw [dirichletLaw, Measure.map_map (measurable_pi_apply i) measurable_prop]
  change (gammas alpha).map _ = _
  have hl : ∀ j, (gammas alpha).map (fun g => g j) = gammaMeasure (alpha j) 1 := fun j =>
    (measurePreserving_eval (fun i => gammaMeasure (alpha i) 1) j).map_eq
  have hind : iIndepFun (fun j (g : Fin n → ℝ) => g j) (gammas alpha) := by
    have := iIndepFun_pi (μ := fun j => gammaMeasure (alpha j) 1) (X := fun _ => id) fun _ => aemeasurable_id
    exact this
  have hne : (Finset.univ.erase i).Nonempty := by
    rw [← Finset.card_pos, Finset.card_erase_of_mem (Finset.mem_univ i), Finset.card_univ, Fintype.card_fin]
    omega
  have hm : ∀ j, Measurable fun g : Fin n → ℝ => g j := fun j => measurable_pi_apply j
  have hsum := finset_sum_law hm hind hl h (Finset.univ.erase i) hne
  have hI : IndepFun (fun g : Fin n → ℝ => g i) (fun g => ∑ j ∈ Finset.univ.erase i, g j) (gammas alpha) := by
    have := (hind.indepFun_finsetSum_of_notMem hm (Finset.notMem_erase i Finset.univ)).symm
    convert this using 1
    ext ω; simp
  have key := (sum_law (h i) (Finset.sum_pos (fun j _ => h j) hne) (hm i)
    (Finset.measurable_sum _ fun j _ => hm j) hI (hl i) hsum).2
  have e : ∀ f : Fin n → ℝ, f i + ∑ j ∈ Finset.univ.erase i, f j = ∑ j, f j := fun f =>
    Finset.add_sum_erase _ f (Finset.mem_univ i)
  have e2 : (dirichletMarginal alpha i).2 = ∑ j ∈ Finset.univ.erase i, alpha j := by
    simp only [dirichletMarginal]; rw [← e alpha]; ring
  rw [e2]
  simp only [e] at key
  exact key

/-- C100 is false in dimension one: the second parameter of the Beta is zero. -/
theorem dirichlet_marginal_one (alpha : Fin 1 → ℝ) (i : Fin 1) : (dirichletMarginal alpha i).2 = 0 := by
  fin_cases i; simp [dirichletMarginal]

/-! ### Dirichlet: the joint density -/

/-- C100: the function drawn on the triangle is the density of the law (of all coordinates but the last), given an exact
`gammaln`; in any dimension. -/
theorem dirichlet_joint_density (lg : ℝ → ℝ) (hlg : ∀ a, 0 < a → lg a = Real.log (Real.Gamma a)) {n : ℕ}
    (alpha : Fin (n + 1) → ℝ) (h : ∀ i, 0 < alpha i) :
    (dirichletLaw alpha).map (fun x (i : Fin n) => x i.castSucc) =
      volume.withDensity (Set.indicator {x | (∀ i, 0 < x i) ∧ ∑ i, x i < 1}
        fun x => ENNReal.ofReal (simplexPdf lg alpha (Fin.snoc x (1 - ∑ i, x i)))) := by
  have hS : 0 < ∑ i, alpha i := Finset.sum_pos (fun i _ => h i) Finset.univ_nonempty
  have := isProbabilityMeasure_gammaMeasure hS one_pos
  have hd : (Set.indicator {x : Fin n → ℝ | (∀ i, 0 < x i) ∧ ∑ i, x i < 1}
        fun x => ENNReal.ofReal (simplexPdf lg alpha (Fin.snoc x (1 - ∑ i, x i)))) = dirPDF alpha := by
    ext x
    unfold dirPDF dirPDFReal
    by_cases hx : (∀ i, 0 < x i) ∧ ∑ i, x i < 1
    · rw [Set.indicator_of_mem (by exact hx), if_pos hx]
      congr 1
      have hc : simplexCoef lg alpha = Real.Gamma (∑ i, alpha i) / ∏ i, Real.Gamma (alpha i) := by
        have hG : ∀ i, 0 < Real.Gamma (alpha i) := fun i => Real.Gamma_pos_of_pos (h i)
        unfold simplexCoef
        rw [hlg _ hS, Finset.sum_congr rfl (fun i _ => hlg _ (h i)), ← Real.log_prod (fun i _ => (hG i).ne'),
          Real.exp_sub, Real.exp_log (Real.Gamma_pos_of_pos hS), Real.exp_log (Finset.prod_pos fun i _ => hG i)]
      unfold simplexPdf simplexKernel
      rw [hc, Fin.prod_univ_castSucc (fun i => (Fin.snoc x (1 - ∑ i, x i) : Fin (n + 1) → ℝ) i ^ (alpha i - 1))]
      simp only [Fin.snoc_castSucc, Fin.snoc_last]
      ring
    · rw [Set.indicator_of_notMem (by exact hx), if_neg hx, ENNReal.ofReal_zero]
  rw [hd, dirichletLaw, Measure.map_map (by fun_prop) measurable_prop]
  have key := congrArg (Measure.map Prod.fst) (dir_law n alpha h)
  rw [Measure.map_map measurable_fst measurable_propTotal, Measure.map_fst_prod] at key
  simpa [Function.comp_def, propTotal, gammas] using key

/-- what is drawn, with all levels multiplied -/
def scaleDrawn (c : ℝ) : Drawn → Drawn
  | .filled => .filled
  | .lines l => .lines (l.map (c * ·))

private theorem sortedDensity_scale {c : ℝ} (hc : 0 < c) (d : List ℝ) :
    sortedDensity (d.map (c * ·)) = (sortedDensity d).map (c * ·) := by
  unfold sortedDensity
  rw [List.map_insertionSort (r := (· ≥ ·)) (s := (· ≥ ·))]
  intro a _ b _
  simp [hc]

private theorem level_scale {c : ℝ} (hc : 0 < c) (s : List ℝ) (p : ℝ) :
    level (s.map (c * ·)) p = c * level s p := by
  have hsum : ∀ l : List ℝ, (l.map (c * ·)).sum = c * l.sum := fun l => by
    simpa using List.sum_map_mul_left l id c
  have hk : ∀ i, kept (s.map (c * ·)) p i ↔ kept s p i := by
    intro i
    unfold kept csd
    rw [← List.map_take, hsum, hsum]
    by_cases h0 : s.sum = 0
    · simp [h0]
    · rw [if_neg (mul_ne_zero hc.ne' h0), if_neg h0]
      simp only
      rw [mul_div_mul_left _ _ hc.ne']
  have hk' : kept (s.map (c * ·)) p = kept s p := funext fun i => propext (hk i)
  unfold level
  rw [hk', List.length_map]
  split
  · rename_i i _
    rw [List.getD_eq_getElem?_getD, List.getD_eq_getElem?_getD, List.getElem?_map]
    cases s[i]? <;> simp
  · cases s <;> simp

/-- C100: the regions drawn do not depend on the accuracy of `gammaln`: another function multiplies the density and all
levels by the same positive number. -/
theorem simplex_gammaln (lg lg' : ℝ → ℝ) (alpha : Fin 3 → ℝ) (pts : List (ℝ × ℝ)) :
    ∃ c, 0 < c ∧ (∀ x, simplexPdf lg' alpha x = c * simplexPdf lg alpha x) ∧
      drawSimplex lg' alpha pts = (drawSimplex lg alpha pts).map (scaleDrawn c) := by
  refine ⟨simplexCoef lg' alpha / simplexCoef lg alpha, div_pos (Real.exp_pos _) (Real.exp_pos _), ?_, ?_⟩
  · intro x
    unfold simplexPdf
    have : simplexCoef lg alpha ≠ 0 := (Real.exp_pos _).ne'
    field_simp
  · set c := simplexCoef lg' alpha / simplexCoef lg alpha with hcd
    have hc : 0 < c := div_pos (Real.exp_pos _) (Real.exp_pos _)
    have e : (pts.map fun p => simplexPdf lg' alpha (xy2bc p 1e-3)) =
        (pts.map fun p => simplexPdf lg alpha (xy2bc p 1e-3)).map (c * ·) := by
      rw [List.map_map]
      refine List.map_congr_left fun p _ => ?_
      simp only [Function.comp, simplexPdf]
      have : simplexCoef lg alpha ≠ 0 := (Real.exp_pos _).ne'
      rw [hcd]; field_simp
    unfold drawSimplex simplexPlot
    rw [e]
    generalize (pts.map fun p => simplexPdf lg alpha (xy2bc p 1e-3)) = d
    unfold hdiContours
    by_cases hd : d = []
    · simp [hd, Except.map]
    · rw [if_neg hd, if_neg (by simpa using hd), sortedDensity_scale hc]
      have hl : ∀ ps : List ℝ, ((ps.map (level ((sortedDensity d).map (c * ·)))).insertionSort (· ≤ ·)) =
          ((ps.map (level (sortedDensity d))).insertionSort (· ≤ ·)).map (c * ·) := by
        intro ps
        rw [List.map_insertionSort (r := (· ≤ ·)) (s := (· ≤ ·)), List.map_map]
        · congr 1
          exact List.map_congr_left fun p _ => level_scale hc _ _
        · intro a _ b _; simp [hc]
      simp only [Except.ok_bind', Except.pure_eq, Except.map]
      rw [hl]
      generalize ([0.1, 0.5, 0.94].map (level (sortedDensity d))).insertionSort (· ≤ ·) = ls
      have hh : (ls.map (c * ·)).headD 0 = c * ls.headD 0 := by cases ls <;> simp
      have ha : (ls.map (c * ·)).all (fun l => decide (l = (ls.map (c * ·)).headD 0)) =
          ls.all fun l => decide (l = ls.headD 0) := by
        rw [hh, List.all_map]
        congr 1
        ext l
        simp [hc.ne']
      rw [ha]
      split_ifs <;> rfl

/-! ### MvNormal -/

/-- C100: the Normal drawn for a coordinate of an MvNormal is the law of that coordinate. -/
theorem mvnormal_marginal_law {n : ℕ} (mu : EuclideanSpace ℝ (Fin n)) (cov : Matrix (Fin n) (Fin n) ℝ) (h : cov.PosSemidef)
    (i : Fin n) :
    (multivariateGaussian mu cov).map (fun x => x i) =
      gaussianReal (mvMarginal mu cov i).1 ((mvMarginal mu cov i).2 ^ 2).toNNReal := by
  rw [(measurePreserving_eval_multivariateGaussian h).map_eq]
  simp only [mvMarginal]
  have : 0 ≤ cov i i := h.diag_nonneg
  rw [Real.sq_sqrt this]

private theorem exp_bound : Real.exp (-(9 / 2)) ≤ 0.0125 := by
  rw [Real.exp_neg, inv_le_comm₀ (Real.exp_pos _) (by norm_num)]
  have h1 : Real.exp (9 / 2) = Real.exp 1 ^ 4 * Real.exp (1 / 2) := by
    rw [← Real.exp_nat_mul, ← Real.exp_add]; norm_num
  have h2 : (1.5 : ℝ) ≤ Real.exp (1 / 2) := by
    have := Real.add_one_le_exp (1 / 2 : ℝ); linarith
  have h3 := Real.exp_one_gt_d9
  have h4 : (2.718 : ℝ) ^ 4 ≤ Real.exp 1 ^ 4 := pow_le_pow_left₀ (by norm_num) (by linarith) 4
  rw [h1]
  calc (0.0125 : ℝ)⁻¹ ≤ 2.718 ^ 4 * 1.5 := by norm_num
    _ ≤ _ := mul_le_mul h4 h2 (by norm_num) (by positivity)

private theorem gauss_tail (m : ℝ) {s : ℝ} (hs : 0 < s) :
    (gaussianReal m (s ^ 2).toNNReal).real {x | x < m - 3 * s ∨ m + 3 * s < x} ≤ 2 * Real.exp (-(9 / 2)) := by
  set μ := gaussianReal m (s ^ 2).toNNReal with hμ
  have hint : ∀ t : ℝ, Integrable (fun ω => Real.exp (t * id ω)) μ := fun t =>
    integrable_exp_mul_gaussianReal t
  have hmgf : ∀ t, mgf id μ t = Real.exp (m * t + s ^ 2 * t ^ 2 / 2) := by
    intro t
    rw [mgf_gaussianReal (μ := m) (v := (s ^ 2).toNNReal) (by simp [hμ])]
    rw [Real.coe_toNNReal _ (sq_nonneg s)]
  have hu := measure_ge_le_exp_mul_mgf (μ := μ) (X := id) (m + 3 * s) (t := 3 / s) (by positivity) (hint _)
  have hl := measure_le_le_exp_mul_mgf (μ := μ) (X := id) (m - 3 * s) (t := -(3 / s)) (by simp; positivity) (hint _)
  rw [hmgf, ← Real.exp_add] at hu hl
  have e1 : -(3 / s) * (m + 3 * s) + (m * (3 / s) + s ^ 2 * (3 / s) ^ 2 / 2) = -(9 / 2) := by field_simp; ring
  have e2 : -(-(3 / s)) * (m - 3 * s) + (m * -(3 / s) + s ^ 2 * (-(3 / s)) ^ 2 / 2) = -(9 / 2) := by field_simp; ring
  rw [e1] at hu
  rw [e2] at hl
  calc μ.real {x | x < m - 3 * s ∨ m + 3 * s < x}
      ≤ μ.real ({ω | id ω ≤ m - 3 * s} ∪ {ω | m + 3 * s ≤ id ω}) := by
        refine measureReal_mono ?_
        rintro x (hx | hx)
        · exact Or.inl (le_of_lt hx)
        · exact Or.inr (le_of_lt hx)
    _ ≤ _ := measureReal_union_le _ _
    _ ≤ _ := by linarith

/-- C100: the rectangle on which the joint density of an MvNormal is drawn has at least 0.95 of the probability, more than the
0.94 of the outermost contour. -/
theorem joint_box_mass (mu : EuclideanSpace ℝ (Fin 2)) (cov : Matrix (Fin 2) (Fin 2) ℝ) (h : cov.PosSemidef)
    (h0 : 0 < cov 0 0) (h1 : 0 < cov 1 1) :
    0.95 ≤ (multivariateGaussian mu cov).real
      {x | ∀ i, (jointRange mu cov i).1 ≤ x i ∧ x i ≤ (jointRange mu cov i).2} := by
  set G := multivariateGaussian mu cov with hG
  have tail : ∀ i, G.real {x | x i < (jointRange mu cov i).1 ∨ (jointRange mu cov i).2 < x i} ≤ 0.025 := by
    intro i
    have hpos : 0 < cov i i := by fin_cases i <;> assumption
    have hm := mvnormal_marginal_law mu cov h i
    have ht := gauss_tail (mu i) (Real.sqrt_pos.2 hpos)
    have e : G.real {x | x i < (jointRange mu cov i).1 ∨ (jointRange mu cov i).2 < x i} =
        (G.map fun x => x i).real {x | x < mu i - 3 * Real.sqrt (cov i i) ∨ mu i + 3 * Real.sqrt (cov i i) < x} := by
      rw [map_measureReal_apply (by fun_prop)]
      · rfl
      · exact measurableSet_Iio.union measurableSet_Ioi
    rw [e, hm]
    simp only [mvMarginal]
    have := exp_bound
    linarith
  have hm : MeasurableSet {x : EuclideanSpace ℝ (Fin 2) | ∀ i, (jointRange mu cov i).1 ≤ x i ∧ x i ≤ (jointRange mu cov i).2} := by
    rw [Set.ofPred_forall]
    refine MeasurableSet.iInter fun i => ?_
    have hmi : Measurable fun x : EuclideanSpace ℝ (Fin 2) => x i := by fun_prop
    exact (measurableSet_le measurable_const hmi).inter (measurableSet_le hmi measurable_const)
  have hc := probReal_compl_eq_one_sub (μ := G) hm
  have hsub : G.real {x | ∀ i, (jointRange mu cov i).1 ≤ x i ∧ x i ≤ (jointRange mu cov i).2}ᶜ ≤ 0.05 := by
    calc _ ≤ G.real ({x | x 0 < (jointRange mu cov 0).1 ∨ (jointRange mu cov 0).2 < x 0} ∪
          {x | x 1 < (jointRange mu cov 1).1 ∨ (jointRange mu cov 1).2 < x 1}) := by
          refine measureReal_mono ?_
          intro x hx
          simp only [Set.mem_compl_iff, Set.mem_ofPred_eq, Fin.forall_fin_two, not_and_or, not_le] at hx
          exact hx
      _ ≤ _ := measureReal_union_le _ _
      _ ≤ 0.05 := by linarith [tail 0, tail 1]
  linarith

private theorem mgrid_length (a b : ℝ) : (mgrid a b).length = ⌈(b - a) / 0.01⌉₊ := by simp [mgrid]

/-- C100: the values on an axis lie in the range, the first is its lower end, and every point of the range is less than 0.01
above one of them (or equal to it); at the upper end up to 0.01. -/
theorem mgrid_covers (a b : ℝ) (h : a < b) :
    (∀ x ∈ mgrid a b, a ≤ x ∧ x < b) ∧ a ∈ mgrid a b ∧
      ∀ x, a ≤ x → x < b → ∃ y ∈ mgrid a b, y ≤ x ∧ x < y + 0.01 := by
  have hpos : (0 : ℝ) < 0.01 := by norm_num
  have mem : ∀ k : ℕ, a + 0.01 * k < b → a + 0.01 * (k : ℝ) ∈ mgrid a b := by
    intro k hk
    refine List.mem_map.2 ⟨k, List.mem_range.2 ?_, rfl⟩
    rw [Nat.lt_ceil, lt_div_iff₀ hpos]; linarith
  refine ⟨?_, ?_, ?_⟩
  · intro x hx
    obtain ⟨k, hk, rfl⟩ := List.mem_map.1 hx
    rw [List.mem_range, Nat.lt_ceil, lt_div_iff₀ hpos] at hk
    exact ⟨by have : (0 : ℝ) ≤ k := k.cast_nonneg; linarith [mul_nonneg hpos.le this], by linarith⟩
  · simpa using mem 0 (by simpa using h)
  · intro x hx hb
    have hk := Nat.floor_le (div_nonneg (sub_nonneg.2 hx) hpos.le)
    have hk' := Nat.lt_floor_add_one ((x - a) / 0.01)
    rw [le_div_iff₀ hpos] at hk
    rw [div_lt_iff₀ hpos] at hk'
    exact ⟨_, mem ⌊(x - a) / 0.01⌋₊ (by linarith), by linarith, by linarith⟩

/-- C100: contours are drawn exactly if both standard deviations exceed 1/600. -/
theorem joint_normal_drawn (pdf : ℝ × ℝ → ℝ) (mu : Fin 2 → ℝ) (cov : Matrix (Fin 2) (Fin 2) ℝ) (h0 : 0 < cov 0 0)
    (h1 : 0 < cov 1 1) :
    (∃ r, jointNormal pdf mu cov = .ok r) ↔ 1 / 600 < Real.sqrt (cov 0 0) ∧ 1 / 600 < Real.sqrt (cov 1 1) := by
  have len : ∀ i, (mgrid (jointRange mu cov i).1 (jointRange mu cov i).2).length < 2 ↔
      Real.sqrt (cov i i) ≤ 1 / 600 := by
    intro i
    rw [mgrid_length]
    simp only [jointRange]
    rw [show ∀ n : ℕ, n < 2 ↔ n ≤ 1 from fun n => by omega, Nat.ceil_le, Nat.cast_one, div_le_one (by norm_num)]
    constructor <;> intro h <;> linarith
  have ne : ∀ i, 0 < cov i i → mgrid (jointRange mu cov i).1 (jointRange mu cov i).2 ≠ [] := by
    intro i hi he
    have := congrArg List.length he
    rw [mgrid_length] at this
    simp only [jointRange, List.length_nil, Nat.ceil_eq_zero] at this
    have hs := Real.sqrt_pos.2 hi
    have : mu i + 3 * Real.sqrt (cov i i) - (mu i - 3 * Real.sqrt (cov i i)) ≤ 0 := by
      by_contra hc
      push Not at hc
      have := div_pos hc (by norm_num : (0 : ℝ) < 0.01)
      linarith
    linarith
  have hne : ((mgrid (jointRange mu cov 0).1 (jointRange mu cov 0).2).flatMap fun a =>
      (mgrid (jointRange mu cov 1).1 (jointRange mu cov 1).2).map fun b => pdf (a, b)) ≠ [] := by
    rw [Ne, List.flatMap_eq_nil_iff]
    intro hall
    obtain ⟨a, ha⟩ := List.exists_mem_of_ne_nil _ (ne 0 h0)
    have := hall a ha
    rw [List.map_eq_nil_iff] at this
    exact ne 1 h1 this
  unfold jointNormal
  simp only [hdiContours, if_neg hne, Except.ok_bind', len]
  by_cases hc : Real.sqrt (cov 0 0) ≤ 1 / 600 ∨ Real.sqrt (cov 1 1) ≤ 1 / 600
  · rw [if_pos hc]
    constructor
    · rintro ⟨r, hr⟩; cases hr
    · rintro ⟨a, b⟩; rcases hc with hc | hc <;> linarith
  · rw [if_neg hc]
    push Not at hc
    exact ⟨fun _ => hc, fun _ => ⟨_, rfl⟩⟩

/-- What is drawn: a density level for each of 10, 50 and 94 percent of the weight of the grid, in increasing order. -/
theorem joint_normal_levels (pdf : ℝ × ℝ → ℝ) (mu : Fin 2 → ℝ) (cov : Matrix (Fin 2) (Fin 2) ℝ)
    (hpdf : ∀ q, 0 < pdf q) (x y levels : List ℝ) (h : jointNormal pdf mu cov = .ok (x, y, levels)) :
    ∃ a b c : ℝ, levels.Perm [a, b, c] ∧ levels.Pairwise (· ≤ ·) ∧ ∀ q ∈ [((0.1 : ℝ), a), (0.5, b), (0.94, c)],
      share (x.flatMap fun u => y.map fun v => pdf (u, v)) (fun d => q.2 < d) ≤ q.1 ∧
      ∀ u ∈ x, ∀ v ∈ y, pdf (u, v) < q.2 → q.1 < share (x.flatMap fun u => y.map fun v => pdf (u, v))
        (fun d => pdf (u, v) ≤ d) := by
  unfold jointNormal at h
  simp only at h
  generalize hx : mgrid (jointRange mu cov 0).1 (jointRange mu cov 0).2 = gx at h
  generalize hy : mgrid (jointRange mu cov 1).1 (jointRange mu cov 1).2 = gy at h
  by_cases hne : (gx.flatMap fun a => gy.map fun b => pdf (a, b)) = []
  · simp [hdiContours, hne] at h
  have hpos : ∀ d ∈ (gx.flatMap fun a => gy.map fun b => pdf (a, b)), 0 < d := by
    intro d hd
    obtain ⟨u, -, hd⟩ := List.mem_flatMap.1 hd
    obtain ⟨v, -, rfl⟩ := List.mem_map.1 hd
    exact hpdf _
  obtain ⟨ls, hls, hall⟩ := contours_levels _ [0.1, 0.5, 0.94] hne (fun d hd => (hpos d hd).le)
    (List.sum_pos _ hpos hne) (by norm_num)
  rw [hls, Except.ok_bind'] at h
  split at h
  · cases h
  · injection h with h
    simp only [Prod.mk.injEq] at h
    obtain ⟨rfl, rfl, rfl⟩ := h
    cases hall with
    | cons ha hall =>
      cases hall with
      | cons hb hall =>
        cases hall with
        | cons hc hall =>
          cases hall
          refine ⟨_, _, _, List.perm_insertionSort _ _, List.pairwise_insertionSort _ _, ?_⟩
          intro q hq
          have mem : ∀ u ∈ gx, ∀ v ∈ gy, pdf (u, v) ∈ gx.flatMap fun a => gy.map fun b => pdf (a, b) := fun u hu v hv =>
            List.mem_flatMap.2 ⟨u, hu, List.mem_map.2 ⟨v, hv, rfl⟩⟩
          simp only [List.mem_cons, List.not_mem_nil, or_false] at hq
          rcases hq with rfl | rfl | rfl
          · exact ⟨ha.1, fun u hu v hv => ha.2 _ (mem u hu v hv)⟩
          · exact ⟨hb.1, fun u hu v hv => hb.2 _ (mem u hu v hv)⟩
          · exact ⟨hc.1, fun u hu v hv => hc.2 _ (mem u hu v hv)⟩

/-- C100 is false for small variances: a TypeError. -/
theorem joint_normal_small (pdf : ℝ × ℝ → ℝ) (mu : Fin 2 → ℝ) :
    jointNormal pdf mu !![1e-6, 0; 0, 1e-6] = .error .typeError := by
  have hs : Real.sqrt 1e-6 = 1e-3 := by
    rw [Real.sqrt_eq_iff_mul_self_eq (by norm_num) (by norm_num)]; norm_num
  have e : ∀ i, mgrid (jointRange mu !![1e-6, 0; 0, 1e-6] i).1 (jointRange mu !![1e-6, 0; 0, 1e-6] i).2 =
      [(jointRange mu !![1e-6, 0; 0, 1e-6] i).1] := by
    intro i
    have hi : (!![1e-6, 0; 0, 1e-6] : Matrix (Fin 2) (Fin 2) ℝ) i i = 1e-6 := by fin_cases i <;> rfl
    have : ⌈((jointRange mu !![1e-6, 0; 0, 1e-6] i).2 - (jointRange mu !![1e-6, 0; 0, 1e-6] i).1) / 0.01⌉₊ = 1 := by
      simp only [jointRange, hi, hs]
      rw [Nat.ceil_eq_iff one_ne_zero]
      norm_num
    unfold mgrid
    rw [this]; simp
  unfold jointNormal
  simp [e, hdiContours]

example : ∃ cov : Matrix (Fin 2) (Fin 2) ℝ, cov.PosSemidef ∧ 0 < cov 0 0 ∧ 0 < cov 1 1 :=
  ⟨1, Matrix.PosSemidef.one, by simp, by simp⟩

example : ∃ alpha : Fin 3 → ℝ, (∀ i, 0 < alpha i) ∧ dirichletMarginal alpha 0 = (1, 5) :=
  ⟨![1, 2, 3], by intro i; fin_cases i <;> norm_num, by simp [dirichletMarginal, Fin.sum_univ_three]; norm_num⟩

end Verif.Props
