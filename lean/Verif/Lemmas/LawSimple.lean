import Verif.Lemmas.LawGamma
import Verif.Lemmas.BetaMoments
import Mathlib.Analysis.SpecialFunctions.ImproperIntegrals
import Mathlib.Analysis.SpecialFunctions.Integrals.Basic

/-!
# Means and variances: Uniform, Triangular, Laplace, AsymmetricLaplace, Pareto, Beta, BetaScaled
-/

namespace Verif.Law
open MeasureTheory Verif.Spec Set

/-- the integral of a continuous function over an interval -/
theorem HIs.interval {g : ℝ → ℝ} (hg : Continuous g) {a b c : ℝ} (hab : a ≤ b) (h : ∫ x in a..b, g x = c) :
    HIs (Icc a b) g c :=
  ⟨hg.integrableOn_Icc, by rw [integral_Icc_eq_integral_Ioc, ← intervalIntegral.integral_of_le hab, h]⟩

theorem uniform {a b : ℝ} (h : a < b) : HasMoments (ofPdf (uniformPdf a b)) ((a + b) / 2) ((b - a) ^ 2 / 12) := by
  have hd : b - a ≠ 0 := by linarith
  have hp : 0 < b - a := by linarith
  have h' := Raw.on (s := Icc a b) (g := fun _ => 1 / (b - a)) (m := (a + b) / 2) (q := (a ^ 2 + a * b + b ^ 2) / 3)
    measurableSet_Icc (by fun_prop) (fun x hx => by positivity) ?_ ?_ ?_
  · have := (h'.congr (g := uniformPdf a b) fun x => by simp only [Set.indicator, Set.mem_Icc, uniformPdf]).moments
    convert this using 1
    ring
  · refine HIs.interval (by fun_prop) h.le ?_
    rw [intervalIntegral.integral_const, smul_eq_mul]; field_simp
  · refine HIs.interval (by fun_prop) h.le ?_
    rw [intervalIntegral.integral_mul_const, integral_id]; field_simp; ring
  · refine HIs.interval (by fun_prop) h.le ?_
    rw [intervalIntegral.integral_mul_const, integral_pow]; field_simp; ring

/-- the integral of a cubic -/
private theorem cubic (a b k0 k1 k2 k3 : ℝ) : ∫ x in a..b, (k0 + k1 * x + k2 * x ^ 2 + k3 * x ^ 3) =
    k0 * (b - a) + k1 * ((b ^ 2 - a ^ 2) / 2) + k2 * ((b ^ 3 - a ^ 3) / 3) + k3 * ((b ^ 4 - a ^ 4) / 4) := by
  rw [intervalIntegral.integral_add, intervalIntegral.integral_add, intervalIntegral.integral_add,
    intervalIntegral.integral_const_mul, intervalIntegral.integral_const_mul, intervalIntegral.integral_const_mul,
    intervalIntegral.integral_const, integral_id, integral_pow, integral_pow, smul_eq_mul]
  · norm_num; ring
  all_goals exact Continuous.intervalIntegrable (by fun_prop) _ _

/-- rising part of the triangle -/
private theorem rise {a c : ℝ} (h : a < c) (k : ℝ) :
    HIs (Icc a c) (fun x => k * (x - a)) (k * (c - a) ^ 2 / 2) ∧
    HIs (Icc a c) (fun x => x * (k * (x - a))) (k * ((c - a) ^ 2 * (2 * c + a) / 6)) ∧
    HIs (Icc a c) (fun x => x ^ 2 * (k * (x - a))) (k * ((c - a) ^ 2 * (3 * c ^ 2 + 2 * a * c + a ^ 2) / 12)) := by
  refine ⟨HIs.interval (by fun_prop) h.le ?_, HIs.interval (by fun_prop) h.le ?_, HIs.interval (by fun_prop) h.le ?_⟩
  · have := cubic a c (-k * a) k 0 0
    rw [← sub_eq_zero] at this ⊢
    rw [← this]
    have e : (fun x : ℝ => k * (x - a)) = fun x => -k * a + k * x + 0 * x ^ 2 + 0 * x ^ 3 := by funext x; ring
    rw [e]; ring
  · have := cubic a c 0 (-k * a) k 0
    rw [← sub_eq_zero] at this ⊢
    rw [← this]
    have e : (fun x : ℝ => x * (k * (x - a))) = fun x => 0 + -k * a * x + k * x ^ 2 + 0 * x ^ 3 := by funext x; ring
    rw [e]; ring
  · have := cubic a c 0 0 (-k * a) k
    rw [← sub_eq_zero] at this ⊢
    rw [← this]
    have e : (fun x : ℝ => x ^ 2 * (k * (x - a))) = fun x => 0 + 0 * x + -k * a * x ^ 2 + k * x ^ 3 := by funext x; ring
    rw [e]; ring

/-- falling part -/
private theorem fall {c b : ℝ} (h : c < b) (k : ℝ) :
    HIs (Icc c b) (fun x => k * (b - x)) (k * (b - c) ^ 2 / 2) ∧
    HIs (Icc c b) (fun x => x * (k * (b - x))) (k * ((b - c) ^ 2 * (2 * c + b) / 6)) ∧
    HIs (Icc c b) (fun x => x ^ 2 * (k * (b - x))) (k * ((b - c) ^ 2 * (3 * c ^ 2 + 2 * b * c + b ^ 2) / 12)) := by
  refine ⟨HIs.interval (by fun_prop) h.le ?_, HIs.interval (by fun_prop) h.le ?_, HIs.interval (by fun_prop) h.le ?_⟩
  · have := cubic c b (k * b) (-k) 0 0
    rw [← sub_eq_zero] at this ⊢
    rw [← this]
    have e : (fun x : ℝ => k * (b - x)) = fun x => k * b + -k * x + 0 * x ^ 2 + 0 * x ^ 3 := by funext x; ring
    rw [e]; ring
  · have := cubic c b 0 (k * b) (-k) 0
    rw [← sub_eq_zero] at this ⊢
    rw [← this]
    have e : (fun x : ℝ => x * (k * (b - x))) = fun x => 0 + k * b * x + -k * x ^ 2 + 0 * x ^ 3 := by funext x; ring
    rw [e]; ring
  · have := cubic c b 0 0 (k * b) (-k)
    rw [← sub_eq_zero] at this ⊢
    rw [← this]
    have e : (fun x : ℝ => x ^ 2 * (k * (b - x))) = fun x => 0 + 0 * x + k * b * x ^ 2 + -k * x ^ 3 := by funext x; ring
    rw [e]; ring

/-- the part of the triangle on the left, empty if `a = c` -/
private theorem left (a c b : ℝ) (h : a ≤ c) (w : ℝ → ℝ) (v : ℝ) (hw : a < c → HIs (Icc a c)
    (fun x => w x * (2 / ((b - a) * (c - a)) * (x - a))) v) (h0 : a = c → v = 0) :
    HI ((Icc a c).indicator fun x => w x * (2 / ((b - a) * (c - a)) * (x - a))) v := by
  rcases h.lt_or_eq with h | h
  · exact (hw h).all measurableSet_Icc
  · subst h
    rw [h0 rfl]
    have e : ((Icc a a).indicator fun x => w x * (2 / ((b - a) * (a - a)) * (x - a))) = fun _ => 0 := by
      funext x; simp [Set.indicator]
    rw [e]
    exact ⟨integrable_zero _ _ _, integral_zero _ _⟩

private theorem right (a c b : ℝ) (h : c ≤ b) (w : ℝ → ℝ) (v : ℝ) (hw : c < b → HIs (Icc c b)
    (fun x => w x * (2 / ((b - a) * (b - c)) * (b - x))) v) (h0 : c = b → v = 0) :
    HI ((Icc c b).indicator fun x => w x * (2 / ((b - a) * (b - c)) * (b - x))) v := by
  rcases h.lt_or_eq with h | h
  · exact (hw h).all measurableSet_Icc
  · subst h
    rw [h0 rfl]
    have e : ((Icc c c).indicator fun x => w x * (2 / ((c - a) * (c - c)) * (c - x))) = fun _ => 0 := by
      funext x; simp [Set.indicator]
    rw [e]
    exact ⟨integrable_zero _ _ _, integral_zero _ _⟩

theorem triangular {a c b : ℝ} (h1 : a ≤ c) (h2 : c ≤ b) (h : a < b) : HasMoments (ofPdf (triangularPdf a c b))
    ((a + c + b) / 3) ((a ^ 2 + c ^ 2 + b ^ 2 - a * c - a * b - c * b) / 18) := by
  have hba : b - a ≠ 0 := by linarith
  have hp : 0 < b - a := by linarith
  let L : ℝ → ℝ := fun x => 2 / ((b - a) * (c - a)) * (x - a)
  let R : ℝ → ℝ := fun x => 2 / ((b - a) * (b - c)) * (b - x)
  have comb : ∀ (w : ℝ → ℝ) (v1 v2 : ℝ), HI ((Icc a c).indicator fun x => w x * L x) v1 →
      HI ((Icc c b).indicator fun x => w x * R x) v2 →
      HI (fun x => w x * ((Icc a c).indicator L x + (Icc c b).indicator R x)) (v1 + v2) := by
    intro w v1 v2 k1 k2
    refine (k1.add k2).congr fun x => ?_
    rw [mul_add]
    congr 1 <;> simp only [Set.indicator] <;> split_ifs <;> simp
  have R0 : Raw (fun x => (Icc a c).indicator L x + (Icc c b).indicator R x) ((a + c + b) / 3)
      ((a ^ 2 + c ^ 2 + b ^ 2 + a * c + a * b + c * b) / 6) := by
    refine ⟨?_, ?_, ?_, ?_, ?_⟩
    · exact ((by fun_prop : Measurable L).indicator measurableSet_Icc).add ((by fun_prop : Measurable R).indicator measurableSet_Icc)
    · intro x
      refine add_nonneg (Set.indicator_nonneg (fun y hy => ?_) _) (Set.indicator_nonneg (fun y hy => ?_) _)
      · have : 0 ≤ y - a := by linarith [hy.1]
        have : 0 ≤ c - a := by linarith
        positivity
      · have : 0 ≤ b - y := by linarith [hy.2]
        have : 0 ≤ b - c := by linarith
        positivity
    · refine (comb (fun _ => 1) ((c - a) / (b - a)) ((b - c) / (b - a)) ?_ ?_).congr (fun x => one_mul _) |>.val ?_
      · refine left a c b h1 _ _ (fun hac => ?_) (by rintro rfl; simp)
        have : c - a ≠ 0 := by linarith
        refine (rise hac _).1.congr measurableSet_Icc (fun x _ => (one_mul _).symm) |>.val ?_
        field_simp
      · refine right a c b h2 _ _ (fun hcb => ?_) (by rintro rfl; simp)
        have : b - c ≠ 0 := by linarith
        refine (fall hcb _).1.congr measurableSet_Icc (fun x _ => (one_mul _).symm) |>.val ?_
        field_simp
      · field_simp; ring
    · refine (comb (fun x => x) ((c - a) * (2 * c + a) / (3 * (b - a))) ((b - c) * (2 * c + b) / (3 * (b - a))) ?_ ?_).val ?_
      · refine left a c b h1 _ _ (fun hac => ?_) (by rintro rfl; simp)
        have : c - a ≠ 0 := by linarith
        refine (rise hac _).2.1.val ?_
        field_simp; ring
      · refine right a c b h2 _ _ (fun hcb => ?_) (by rintro rfl; simp)
        have : b - c ≠ 0 := by linarith
        refine (fall hcb _).2.1.val ?_
        field_simp; ring
      · field_simp; ring
    · refine (comb (fun x => x ^ 2) ((c - a) * (3 * c ^ 2 + 2 * a * c + a ^ 2) / (6 * (b - a)))
        ((b - c) * (3 * c ^ 2 + 2 * b * c + b ^ 2) / (6 * (b - a))) ?_ ?_).val ?_
      · refine left a c b h1 _ _ (fun hac => ?_) (by rintro rfl; simp)
        have : c - a ≠ 0 := by linarith
        refine (rise hac _).2.2.val ?_
        field_simp; ring
      · refine right a c b h2 _ _ (fun hcb => ?_) (by rintro rfl; simp)
        have : b - c ≠ 0 := by linarith
        refine (fall hcb _).2.2.val ?_
        field_simp; ring
      · field_simp; ring
  have R1 := (R0.ae (g := triangularPdf a c b) ?_ ?_ c ?_).moments
  · convert R1 using 1
    ring
  · unfold triangularPdf
    refine Measurable.ite measurableSet_Iio measurable_const (Measurable.ite measurableSet_Iio (by fun_prop)
      (Measurable.ite (measurableSet_singleton c) measurable_const (Measurable.ite measurableSet_Iic (by fun_prop) measurable_const)))
  · intro x
    unfold triangularPdf
    split_ifs with g1 g2 g3 g4
    · exact le_rfl
    · have : 0 ≤ x - a := by linarith
      have : 0 ≤ c - a := by linarith
      positivity
    · positivity
    · have : 0 ≤ b - x := by linarith
      have : 0 ≤ b - c := by linarith
      positivity
    · exact le_rfl
  · intro x hx
    unfold triangularPdf
    simp only [Set.indicator, Set.mem_Icc, L, R]
    rcases lt_or_gt_of_ne hx with g | g
    · by_cases ha : x < a
      · have : ¬ a ≤ x := by linarith
        have : ¬ c ≤ x := by linarith
        simp [*]
      · have : a ≤ x := by linarith
        have : ¬ c ≤ x := by linarith
        have : x ≤ c := g.le
        simp [*]; ring
    · have : ¬ x < a := by linarith
      have : ¬ x < c := by linarith
      have : ¬ x ≤ c := by linarith
      have : c ≤ x := g.le
      by_cases hb : x ≤ b
      · simp [*]; ring
      · simp [*]

end Verif.Law
