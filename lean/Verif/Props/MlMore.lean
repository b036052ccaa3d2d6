import Verif.Props.MlCounts
import Verif.Lemmas.MlNegBinOne
import Verif.Lemmas.MlDisWeibull
import Verif.Lemmas.MlKuma
import Mathlib.Tactic

/-!
# C141: NegativeBinomial, DiscreteWeibull, Kumaraswamy: which samples have a most likely distribution, and how many
-/

namespace Verif.Props
open Verif Verif.Spec Verif.Ml

/-! ## NegativeBinomial -/

/-- C141: a nonempty sample of counts whose variance exceeds its mean has exactly one most likely NegativeBinomial; it has the mean
of the sample.  Any other sample has none. -/
theorem negBinomial_ml_unique (s : List ℕ) (hs : s ≠ []) :
    (countMean s < countVar s → ∃! p : ℝ × ℝ, Best (fun p : ℝ × ℝ => 0 < p.1 ∧ 0 < p.2) (fun p => negBinomialPmf p.1 p.2) s p) ∧
    (countVar s ≤ countMean s →
      ¬∃ p : ℝ × ℝ, Best (fun p : ℝ × ℝ => 0 < p.1 ∧ 0 < p.2) (fun p => negBinomialPmf p.1 p.2) s p) := by
  have hn : (0 : ℝ) < s.length := by exact_mod_cast List.length_pos_iff.2 hs
  refine ⟨fun h => ?_, fun h hc => absurd ((negBinomial_ml_iff s hs).1 hc) (not_lt.2 h)⟩
  obtain ⟨p, hp⟩ := (negBinomial_ml_iff s hs).2 h
  refine ⟨p, hp, fun q hq => ?_⟩
  have m1 := negBinomial_ml_mean s hs p hp
  have m2 := negBinomial_ml_mean s hs q hq
  have hm : 0 < countMean s := m1 ▸ hp.1.1
  have hT : tot s = s.length * countMean s := by
    unfold tot countMean
    field_simp
  have hv : s.length * (countMean s ^ 2 + countMean s) < sqTot s := by
    have e : (s.map fun x : ℕ => ((x : ℝ) - countMean s) ^ 2).sum = sqTot s - 2 * countMean s * tot s + s.length * countMean s ^ 2 := by
      have : ∀ x : ℕ, ((x : ℝ) - countMean s) ^ 2 = (x : ℝ) ^ 2 + (-(2 * countMean s)) * (x : ℝ) + countMean s ^ 2 := by
        intro x
        ring
      simp only [this]
      rw [lsum_add, lsum_add, lsum_const, lsum_mul]
      unfold sqTot tot
      ring
    have h2 : s.length * countVar s = (s.map fun x : ℕ => ((x : ℝ) - countMean s) ^ 2).sum := by
      unfold countVar
      field_simp
    have h3 := mul_lt_mul_of_pos_left h hn
    rw [h2, e, hT] at h3
    linarith
  obtain ⟨C, hC⟩ := nb_log s
  have hmax : ∀ r : ℝ × ℝ, Best (fun p : ℝ × ℝ => 0 < p.1 ∧ 0 < p.2) (fun p => negBinomialPmf p.1 p.2) s r → r.1 = countMean s →
      ∀ d, 0 < d → nbObj s (countMean s) d ≤ nbObj s (countMean s) r.2 := by
    intro r hr hr1 d hd
    have h1 := Real.log_le_log (lik_pos' fun x _ => negBin_pos hm hd x) (hr.2 (countMean s, d) ⟨hm, hd⟩)
    simp only [hr1] at h1
    rw [hC _ _ hm hd, hC _ _ hm hr.1.2] at h1
    linarith
  exact Prod.ext (m2.trans m1.symm) (nb_one s hs _ hm hT hv _ _ hq.1.2 hp.1.2 (hmax q hq m2) (hmax p hp m1))

example : ∃! p : ℝ × ℝ, Best (fun p : ℝ × ℝ => 0 < p.1 ∧ 0 < p.2) (fun p => negBinomialPmf p.1 p.2) [0, 0, 4] p :=
  (negBinomial_ml_unique [0, 0, 4] (by simp)).1 (by norm_num [countMean, countVar])

/-! ## DiscreteWeibull -/

/-- C141: a nonempty sample of counts has a most likely DiscreteWeibull exactly if two of its values differ by two or more. -/
theorem discreteWeibull_ml_iff (s : List ℕ) (hs : s ≠ []) :
    (∃ p : ℝ × ℝ, Best (fun p : ℝ × ℝ => (0 < p.1 ∧ p.1 < 1) ∧ 0 < p.2) (fun p => discreteWeibullPmf p.1 p.2) s p) ↔
      ∃ x ∈ s, ∃ y ∈ s, x + 2 ≤ y := by
  constructor
  · intro h
    by_contra hc
    push Not at hc
    obtain ⟨c, hc0, hmin⟩ : ∃ c ∈ s, ∀ x ∈ s, c ≤ x := by
      obtain ⟨m, hm, h⟩ := Finset.exists_min_image s.toFinset id (by
        obtain ⟨t, ht⟩ := List.exists_mem_of_ne_nil s hs
        exact ⟨t, List.mem_toFinset.2 ht⟩)
      exact ⟨m, List.mem_toFinset.1 hm, fun t ht => h t (List.mem_toFinset.2 ht)⟩
    refine discreteWeibull_ml_none s hs c (fun x hx => ?_) h
    have h1 := hmin x hx
    have h2 := hc c hc0 x hx
    omega
  · rintro ⟨x, hx, y, hy, hxy⟩
    obtain ⟨p, hp, hb⟩ := disWeibull_exists s x y hx hy hxy
    exact ⟨p, hp, fun q hq => hb q hq⟩

example : ∃ p : ℝ × ℝ, Best (fun p : ℝ × ℝ => (0 < p.1 ∧ p.1 < 1) ∧ 0 < p.2) (fun p => discreteWeibullPmf p.1 p.2) [1, 3, 3] p :=
  (discreteWeibull_ml_iff [1, 3, 3] (by simp)).2 ⟨1, by simp, 3, by simp, by norm_num⟩

/-! ## Kumaraswamy -/

section Kuma
variable (s : List ℝ) (hs : s ≠ []) (hin : ∀ x ∈ s, 0 < x ∧ x < 1)
include hs hin

private theorem ts_ne : s.map (fun x => -Real.log x) ≠ [] := by simpa using hs

omit hs in
private theorem ts_pos : ∀ t ∈ s.map (fun x => -Real.log x), 0 < t := by
  intro t ht
  obtain ⟨x, hx, rfl⟩ := List.mem_map.1 ht
  have := Real.log_neg (hin x hx).1 (hin x hx).2
  linarith

/-- most likely: `b` in closed form, `a` maximal for what remains -/
theorem kum_best (p : ℝ × ℝ) :
    Best (fun p : ℝ × ℝ => 0 < p.1 ∧ 0 < p.2) (fun p => kumaraswamyPdf p.1 p.2) s p ↔
      (0 < p.1 ∧ p.2 = (s.map fun x => -Real.log x).length / kwSum (s.map fun x => -Real.log x) p.1) ∧
        ∀ a, 0 < a → kumProf (s.map fun x => -Real.log x) a ≤ kumProf (s.map fun x => -Real.log x) p.1 := by
  have h1 := ts_ne s hs hin
  have h2 := ts_pos s hin
  set ts := s.map fun x => -Real.log x with hts
  have hn : (0 : ℝ) < ts.length := by exact_mod_cast List.length_pos_iff.2 h1
  have hlog : ∀ a b, 0 < a → 0 < b → Real.log (lik (kumaraswamyPdf a b) s) = kumObj ts a b := fun a b ha hb => kum_log s hin ha hb
  have hlp : ∀ a b, 0 < a → 0 < b → 0 < lik (kumaraswamyPdf a b) s := fun a b ha hb =>
    lik_pos' fun x hx => kum_pos ha hb (hin x hx).1 (hin x hx).2
  have hbp : ∀ a, 0 < a → 0 < ts.length / kwSum ts a := fun a ha => div_pos hn (kwSum_pos h1 h2 ha)
  constructor
  · rintro ⟨⟨g1, g2⟩, hb⟩
    have hle : ∀ a b, 0 < a → 0 < b → kumObj ts a b ≤ kumObj ts p.1 p.2 := by
      intro a b ha hb'
      have := Real.log_le_log (hlp a b ha hb') (hb (a, b) ⟨ha, hb'⟩)
      rwa [hlog _ _ ha hb', hlog _ _ g1 g2] at this
    have e := (kum_b ts h1 h2 g1 g2).2 (hle _ _ g1 (hbp _ g1))
    refine ⟨⟨g1, e⟩, fun a ha => ?_⟩
    have := hle a _ ha (hbp a ha)
    rw [e, kum_prof ts h1 h2 ha, kum_prof ts h1 h2 g1] at this
    linarith
  · rintro ⟨⟨g1, e⟩, hb⟩
    have g2 : 0 < p.2 := e ▸ hbp _ g1
    refine ⟨⟨g1, g2⟩, ?_⟩
    rintro ⟨a, b⟩ ⟨ha, hb'⟩
    simp only at ha hb' ⊢
    rw [← Real.log_le_log_iff (hlp a b ha hb') (hlp _ _ g1 g2), hlog _ _ ha hb', hlog _ _ g1 g2]
    refine (kum_b ts h1 h2 ha hb').1.trans ?_
    rw [e, kum_prof ts h1 h2 ha, kum_prof ts h1 h2 g1]
    linarith [hb a ha]

/-- C141: a sample of numbers strictly between 0 and 1 that contains two different values has exactly one most likely Kumaraswamy
distribution. -/
theorem kumaraswamy_ml_unique (h2 : ∃ x ∈ s, ∃ y ∈ s, x ≠ y) :
    ∃! p : ℝ × ℝ, Best (fun p : ℝ × ℝ => 0 < p.1 ∧ 0 < p.2) (fun p => kumaraswamyPdf p.1 p.2) s p := by
  have t1 := ts_ne s hs hin
  have t2 := ts_pos s hin
  obtain ⟨x, hx, y, hy, hxy⟩ := h2
  obtain ⟨a, ha, hm⟩ := kumProf_exists t1 t2 ⟨_, List.mem_map_of_mem hx, _, List.mem_map_of_mem hy, fun h =>
    hxy (Real.log_injOn_pos (hin x hx).1 (hin y hy).1 (neg_injective h))⟩
  refine ⟨(a, (s.map fun x => -Real.log x).length / kwSum (s.map fun x => -Real.log x) a), (kum_best s hs hin _).2 ⟨⟨ha, rfl⟩, hm⟩, fun q hq => ?_⟩
  obtain ⟨⟨q1, q2⟩, hq⟩ := (kum_best s hs hin q).1 hq
  have e := kumProf_unique t1 t2 q1 ha hq hm
  exact Prod.ext e (by rw [q2, e])

/-- C141: and its `b` is the size of the sample divided by the total of `-log (1 - x ^ a)`. -/
theorem kumaraswamy_ml_b (p : ℝ × ℝ)
    (hp : Best (fun p : ℝ × ℝ => 0 < p.1 ∧ 0 < p.2) (fun p => kumaraswamyPdf p.1 p.2) s p) :
    p.2 = s.length / (s.map fun x => -Real.log (1 - x ^ p.1)).sum := by
  rw [((kum_best s hs hin p).1 hp).1.2, List.length_map]
  congr 1
  unfold kwSum kw
  rw [List.map_map]
  congr 1
  refine List.map_congr_left fun x hx => ?_
  simp only [Function.comp_apply]
  rw [Real.rpow_def_of_pos (hin x hx).1]
  congr 4
  ring

/-- C141: for a constant sample the likelihood has no upper bound, not even for parameters of at least 1. -/
theorem kumaraswamy_ml_constant (c : ℝ) (hc : ∀ x ∈ s, x = c) (M : ℝ) :
    ∃ a b, 1 ≤ a ∧ 1 ≤ b ∧ M < lik (kumaraswamyPdf a b) s := by
  have t1 := ts_ne s hs hin
  have t2 := ts_pos s hin
  set ts := s.map fun x => -Real.log x with hts
  have hn : (0 : ℝ) < ts.length := by exact_mod_cast List.length_pos_iff.2 t1
  obtain ⟨a, ha1, hW, h⟩ := kumProf_unbounded t1 t2 (c := -Real.log c) (by
    intro t ht
    obtain ⟨x, hx, rfl⟩ := List.mem_map.1 ht
    rw [hc x hx]) (Real.log (|M| + 1) - (ts.length * Real.log ts.length - ts.length + ts.sum))
  have ha : 0 < a := by linarith
  have hb : 0 < ts.length / kwSum ts a := div_pos hn (kwSum_pos t1 t2 ha)
  refine ⟨a, _, ha1, (one_le_div (kwSum_pos t1 t2 ha)).2 hW, ?_⟩
  have h1 : Real.log (|M| + 1) < Real.log (lik (kumaraswamyPdf a (ts.length / kwSum ts a)) s) := by
    rw [kum_log s hin ha hb, ← hts, kum_prof ts t1 t2 ha]
    linarith
  have h2 := (Real.log_lt_log_iff (by positivity) (lik_pos' fun x hx => kum_pos ha hb (hin x hx).1 (hin x hx).2)).1 h1
  linarith [le_abs_self M]

/-- C141: a sample of numbers strictly between 0 and 1 has a most likely Kumaraswamy distribution exactly if it contains two
different values. -/
theorem kumaraswamy_ml_iff :
    (∃ p : ℝ × ℝ, Best (fun p : ℝ × ℝ => 0 < p.1 ∧ 0 < p.2) (fun p => kumaraswamyPdf p.1 p.2) s p) ↔
      ∃ x ∈ s, ∃ y ∈ s, x ≠ y := by
  refine ⟨fun ⟨p, hp⟩ => ?_, fun h => (kumaraswamy_ml_unique s hs hin h).exists⟩
  by_contra hc
  push Not at hc
  obtain ⟨c, hcs⟩ := List.exists_mem_of_ne_nil s hs
  obtain ⟨a, b, ha, hb, h⟩ := kumaraswamy_ml_constant s hs hin c (fun x hx => hc x hx c hcs)
    (lik (kumaraswamyPdf p.1 p.2) s)
  exact absurd (hp.2 (a, b) ⟨by simp only; linarith, by simp only; linarith⟩) (not_le.2 h)

end Kuma

example : ∃! p : ℝ × ℝ, Best (fun p : ℝ × ℝ => 0 < p.1 ∧ 0 < p.2) (fun p => kumaraswamyPdf p.1 p.2) [1 / 4, 1 / 2, 1 / 2] p := by
  refine kumaraswamy_ml_unique _ (by simp) ?_ ⟨1 / 4, by simp, 1 / 2, by simp, by norm_num⟩
  intro x hx
  simp only [List.mem_cons, List.not_mem_nil, or_false] at hx
  rcases hx with rfl | rfl | rfl <;> norm_num

end Verif.Props
