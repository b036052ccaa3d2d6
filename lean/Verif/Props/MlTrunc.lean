import Verif.Lemmas.MlTrunc
import Verif.Lemmas.TruncNormal
import Verif.Lemmas.SkewLaw
import Verif.Lemmas.SkewStudent
import Verif.Props.MlExist
import Mathlib.Tactic

/-!
# C142: most likely TruncatedNormal, SkewNormal and SkewStudentT
-/

set_option linter.unusedSimpArgs false

namespace Verif.Props
open Verif Verif.Spec Verif.Ml Set MeasureTheory

/-! ## TruncatedNormal -/

private theorem inB (l u : ℝ) : inBounds (l : EReal) u = Icc l u := by
  ext x
  simp [inBounds]

private theorem np_pos {σ : ℝ} (hσ : 0 < σ) (m x : ℝ) : 0 < normalPdf m σ x := by unfold normalPdf; positivity

private theorem np_cont (m σ : ℝ) : Continuous (normalPdf m σ) := by unfold normalPdf; fun_prop

private theorem mass_eq {l u : ℝ} (h : l ≤ u) (m σ : ℝ) : massBetween m σ l u = ∫ x in l..u, normalPdf m σ x := by
  unfold massBetween
  rw [inB, integral_Icc_eq_integral_Ioc, intervalIntegral.integral_of_le h]

private theorem mass_pos' {l u : ℝ} (h : l < u) {σ : ℝ} (hσ : 0 < σ) (m : ℝ) : 0 < massBetween m σ l u := by
  rw [mass_eq h.le]
  exact intervalIntegral.intervalIntegral_pos_of_pos ((np_cont m σ).intervalIntegrable _ _) (np_pos hσ m) h

/-- on the bounds the density is that of an exponent -/
private theorem trunc_exp {c d : ℝ} (hcd : c < d) {σ : ℝ} (hσ : 0 < σ) (m : ℝ) {x : ℝ} (hx : x ∈ Icc c d) :
    truncNormalPdf m σ c d x = Real.exp (tg (m / σ ^ 2) (1 / (2 * σ ^ 2)) x) / tz c d (m / σ ^ 2) (1 / (2 * σ ^ 2)) := by
  have e : ∀ y, normalPdf m σ y = 1 / (σ * √(2 * Real.pi)) * Real.exp (-m ^ 2 / (2 * σ ^ 2)) *
      Real.exp (tg (m / σ ^ 2) (1 / (2 * σ ^ 2)) y) := by
    intro y
    unfold normalPdf tg
    rw [mul_assoc, ← Real.exp_add]
    congr 2
    field_simp
    ring
  have hK : 1 / (σ * √(2 * Real.pi)) * Real.exp (-m ^ 2 / (2 * σ ^ 2)) ≠ 0 := by positivity
  unfold truncNormalPdf
  rw [inB, if_pos hx, mass_eq hcd.le, e x]
  simp only [e]
  rw [intervalIntegral.integral_const_mul, mul_div_mul_left _ _ hK]
  rfl

private theorem lik_tight {c d : ℝ} (hcd : c < d) (s : List ℝ) (hin : ∀ x ∈ s, x ∈ Icc c d) {σ : ℝ} (hσ : 0 < σ) (m : ℝ) :
    0 < lik (truncNormalPdf m σ c d) s ∧
    Real.log (lik (truncNormalPdf m σ c d) s) = tobj c d s (m / σ ^ 2) (1 / (2 * σ ^ 2)) := by
  have hz := tz_pos hcd (m / σ ^ 2) (1 / (2 * σ ^ 2))
  have hp : ∀ x ∈ s, 0 < truncNormalPdf m σ c d x := by
    intro x hx
    rw [trunc_exp hcd hσ m (hin x hx)]
    positivity
  refine ⟨lik_pos' hp, ?_⟩
  rw [log_lik' hp]
  have : (s.map fun x => Real.log (truncNormalPdf m σ c d x)) =
      s.map fun x => tg (m / σ ^ 2) (1 / (2 * σ ^ 2)) x + -Real.log (tz c d (m / σ ^ 2) (1 / (2 * σ ^ 2))) := by
    refine List.map_congr_left fun x hx => ?_
    rw [trunc_exp hcd hσ m (hin x hx), Real.log_div (Real.exp_pos _).ne' hz.ne', Real.log_exp]
    ring
  rw [this, lsum_add, lsum_const]
  unfold tobj
  ring

private theorem lik_lt' {f g : ℝ → ℝ} {s : List ℝ} (hs : s ≠ []) (h : ∀ x ∈ s, 0 < f x ∧ f x < g x) : lik f s < lik g s := by
  induction s with
  | nil => exact absurd rfl hs
  | cons a t ih =>
    have ha := h a (by simp)
    have e : ∀ q : ℝ → ℝ, lik q (a :: t) = q a * lik q t := by intro q; simp [lik]
    rw [e, e]
    by_cases ht : t = []
    · subst ht
      simpa [lik] using ha.2
    · have h1 := ih ht fun x hx => h x (List.mem_cons_of_mem _ hx)
      have h2 : 0 < lik f t := lik_pos' fun x hx => (h x (List.mem_cons_of_mem _ hx)).1
      exact mul_lt_mul'' ha.2 h1 ha.1.le h2.le

/-- wider bounds are less likely -/
private theorem trunc_wider {c d : ℝ} (hcd : c < d) {s : List ℝ} (hin : ∀ x ∈ s, x ∈ Icc c d) (hc : c ∈ s) (hd : d ∈ s)
    {m σ l u : ℝ} (hσ : 0 < σ) (hne : (l, u) ≠ (c, d)) :
    lik (truncNormalPdf m σ l u) s < lik (truncNormalPdf m σ c d) s := by
  have hpos := (lik_tight hcd s hin hσ m).1
  by_cases hb : l ≤ c ∧ d ≤ u
  · have hlt : massBetween m σ c d < massBetween m σ l u := by
      rw [mass_eq hcd.le, mass_eq (by linarith [hb.1, hb.2])]
      have i : ∀ p q, IntervalIntegrable (normalPdf m σ) volume p q := fun p q => (np_cont m σ).intervalIntegrable p q
      rw [← intervalIntegral.integral_add_adjacent_intervals (i l c) (i c u),
        ← intervalIntegral.integral_add_adjacent_intervals (i c d) (i d u)]
      have p1 : 0 ≤ ∫ x in l..c, normalPdf m σ x := intervalIntegral.integral_nonneg hb.1 fun x _ => (np_pos hσ m x).le
      have p2 : 0 ≤ ∫ x in d..u, normalPdf m σ x := intervalIntegral.integral_nonneg hb.2 fun x _ => (np_pos hσ m x).le
      rcases hb.1.lt_or_eq with h | h
      · have := intervalIntegral.intervalIntegral_pos_of_pos (i l c) (np_pos hσ m) h
        linarith
      · rcases hb.2.lt_or_eq with h' | h'
        · have := intervalIntegral.intervalIntegral_pos_of_pos (i d u) (np_pos hσ m) h'
          linarith
        · exact absurd (by rw [h, h']) hne
    refine lik_lt' (List.ne_nil_of_mem hc) fun x hx => ?_
    have hx1 := hin x hx
    have hx2 : x ∈ Icc l u := ⟨hb.1.trans hx1.1, hx1.2.trans hb.2⟩
    unfold truncNormalPdf
    rw [inB, inB, if_pos hx1, if_pos hx2]
    have h1 := mass_pos' hcd hσ m
    exact ⟨div_pos (np_pos hσ m x) (h1.trans hlt), div_lt_div_of_pos_left (np_pos hσ m x) h1 hlt⟩
  · have : lik (truncNormalPdf m σ l u) s = 0 := by
      unfold lik
      rw [List.prod_eq_zero_iff]
      by_cases h1 : l ≤ c
      · refine List.mem_map.2 ⟨d, hd, ?_⟩
        unfold truncNormalPdf
        rw [inB, if_neg fun h => hb ⟨h1, h.2⟩]
      · refine List.mem_map.2 ⟨c, hc, ?_⟩
        unfold truncNormalPdf
        rw [inB, if_neg fun h => h1 h.1]
    rwa [this]

/-- C142: a most likely TruncatedNormal ends at the smallest and the largest value of the sample. -/
theorem truncNormal_ml_bounds (s : List ℝ) (c d : ℝ) (hcd : c < d) (hin : ∀ x ∈ s, c ≤ x ∧ x ≤ d) (hc : c ∈ s) (hd : d ∈ s)
    (p : ℝ × ℝ × ℝ × ℝ)
    (hp : Best (fun p : ℝ × ℝ × ℝ × ℝ => 0 < p.2.1 ∧ p.2.2.1 < p.2.2.2)
      (fun p => truncNormalPdf p.1 p.2.1 (p.2.2.1 : ℝ) (p.2.2.2 : ℝ)) s p) : p.2.2 = (c, d) := by
  by_contra hne
  exact absurd (hp.2 (p.1, p.2.1, c, d) ⟨hp.1.1, hcd⟩)
    (not_le.2 (trunc_wider hcd (fun x hx => hin x hx) hc hd hp.1.1 (l := p.2.2.1) (u := p.2.2.2) hne))

/-- most likely in terms of the exponent -/
private theorem trunc_best {s : List ℝ} {c d : ℝ} (hcd : c < d) (hin : ∀ x ∈ s, x ∈ Icc c d) (hc : c ∈ s) (hd : d ∈ s)
    {m σ : ℝ} (hσ : 0 < σ) :
    Best (fun p : ℝ × ℝ × ℝ × ℝ => 0 < p.2.1 ∧ p.2.2.1 < p.2.2.2)
      (fun p => truncNormalPdf p.1 p.2.1 (p.2.2.1 : ℝ) (p.2.2.2 : ℝ)) s (m, σ, c, d) ↔
    ∀ a b, 0 < b → tobj c d s a b ≤ tobj c d s (m / σ ^ 2) (1 / (2 * σ ^ 2)) := by
  constructor
  · intro h a b hb
    have hσ' : 0 < √(1 / (2 * b)) := Real.sqrt_pos.2 (by positivity)
    have e2 : √(1 / (2 * b)) ^ 2 = 1 / (2 * b) := Real.sq_sqrt (by positivity)
    have h1 := h.2 (a / (2 * b), √(1 / (2 * b)), c, d) ⟨hσ', hcd⟩
    simp only at h1
    obtain ⟨p1, l1⟩ := lik_tight hcd s hin hσ' (a / (2 * b))
    obtain ⟨p2, l2⟩ := lik_tight hcd s hin hσ m
    have h2 := Real.log_le_log p1 h1
    rw [l1, l2, e2] at h2
    have e3 : a / (2 * b) / (1 / (2 * b)) = a := by field_simp
    have e4 : 1 / (2 * (1 / (2 * b))) = b := by field_simp
    rwa [e3, e4] at h2
  · intro h
    refine ⟨⟨hσ, hcd⟩, ?_⟩
    rintro ⟨m', σ', l, u⟩ ⟨hσ', hlu⟩
    have h0 : lik (truncNormalPdf m' σ' l u) s ≤ lik (truncNormalPdf m' σ' c d) s := by
      by_cases hne : (l, u) = (c, d)
      · obtain ⟨rfl, rfl⟩ := Prod.mk.inj hne
        exact le_rfl
      · exact (trunc_wider hcd hin hc hd hσ' hne).le
    refine h0.trans ?_
    obtain ⟨p1, l1⟩ := lik_tight hcd s hin hσ' m'
    obtain ⟨p2, l2⟩ := lik_tight hcd s hin hσ m
    rw [← Real.log_le_log_iff p1 p2, l1, l2]
    exact h _ _ (by positivity)

/-- C142: among the exponential laws on the range of the sample exactly one has the mean of the sample. -/
theorem tilted_mean_unique (s : List ℝ) (c d : ℝ) (hcd : c < d) (hin : ∀ x ∈ s, c ≤ x ∧ x ≤ d) (hc : c ∈ s) (hd : d ∈ s) :
    ∃! t, tiltedMean t c d = sampleMean s := by
  obtain ⟨-, t, ht⟩ := tobj_max hcd s (fun x hx => hin x hx) hc hd
  have h := tilt_mean_of_max hcd s (List.ne_nil_of_mem hc) ht
  exact ⟨t, h, fun t' h' => tilt_unique hcd (h'.trans h.symm)⟩

/-- C142: a sample with smallest value `c` and largest value `d` has a most likely TruncatedNormal exactly if its variance is
smaller than that of the exponential law on `[c, d]` with the same mean. -/
theorem truncNormal_ml_iff (s : List ℝ) (c d : ℝ) (hcd : c < d) (hin : ∀ x ∈ s, c ≤ x ∧ x ≤ d) (hc : c ∈ s) (hd : d ∈ s)
    (t : ℝ) (ht : tiltedMean t c d = sampleMean s) :
    (∃ p : ℝ × ℝ × ℝ × ℝ, Best (fun p : ℝ × ℝ × ℝ × ℝ => 0 < p.2.1 ∧ p.2.2.1 < p.2.2.2)
      (fun p => truncNormalPdf p.1 p.2.1 (p.2.2.1 : ℝ) (p.2.2.2 : ℝ)) s p) ↔ sampleVar s < tiltedVar t c d := by
  have hs := List.ne_nil_of_mem hc
  have hin' : ∀ x ∈ s, x ∈ Icc c d := fun x hx => hin x hx
  rw [← tobj_iff hcd s hs hin' hc hd ht]
  constructor
  · rintro ⟨p, hp⟩
    have hb := truncNormal_ml_bounds s c d hcd hin hc hd p hp
    obtain ⟨m, σ, l, u⟩ := p
    simp only at hb
    rw [hb] at hp
    have hσ : 0 < σ := hp.1.1
    exact ⟨_, _, by positivity, (trunc_best hcd hin' hc hd hσ).1 hp⟩
  · rintro ⟨a, b, hb, hm⟩
    have hσ' : 0 < √(1 / (2 * b)) := Real.sqrt_pos.2 (by positivity)
    have e2 : √(1 / (2 * b)) ^ 2 = 1 / (2 * b) := Real.sq_sqrt (by positivity)
    refine ⟨(a / (2 * b), √(1 / (2 * b)), c, d), (trunc_best hcd hin' hc hd hσ').2 ?_⟩
    have e3 : a / (2 * b) / (1 / (2 * b)) = a := by field_simp
    have e4 : 1 / (2 * (1 / (2 * b))) = b := by field_simp
    rwa [e2, e3, e4]

theorem truncNormal_pos {c d : ℝ} (hcd : c < d) {σ : ℝ} (hσ : 0 < σ) (m : ℝ) {x : ℝ} (hx : c ≤ x ∧ x ≤ d) :
    0 < truncNormalPdf m σ c d x := by
  have hz := tz_pos hcd (m / σ ^ 2) (1 / (2 * σ ^ 2))
  rw [trunc_exp hcd hσ m hx]
  positivity

/-- C142: if there is none, any TruncatedNormal is beaten by one with as large a `sigma` as one likes. -/
theorem truncNormal_ml_better (s : List ℝ) (c d : ℝ) (hcd : c < d) (hin : ∀ x ∈ s, c ≤ x ∧ x ≤ d) (hc : c ∈ s) (hd : d ∈ s)
    (hno : ¬∃ p : ℝ × ℝ × ℝ × ℝ, Best (fun p : ℝ × ℝ × ℝ × ℝ => 0 < p.2.1 ∧ p.2.2.1 < p.2.2.2)
      (fun p => truncNormalPdf p.1 p.2.1 (p.2.2.1 : ℝ) (p.2.2.2 : ℝ)) s p)
    (m σ l u : ℝ) (hσ : 0 < σ) (M : ℝ) :
    ∃ m' σ', M ≤ σ' ∧ 0 < σ' ∧ lik (truncNormalPdf m σ l u) s < lik (truncNormalPdf m' σ' c d) s := by
  have hs := List.ne_nil_of_mem hc
  have hin' : ∀ x ∈ s, x ∈ Icc c d := fun x hx => hin x hx
  obtain ⟨t, ht, -⟩ := tilted_mean_unique s c d hcd hin hc hd
  rw [truncNormal_ml_iff s c d hcd hin hc hd t ht, not_lt] at hno
  have hM : 0 < |M| + 1 := by positivity
  obtain ⟨e, he0, he1, hlt⟩ := tobj_better hcd s hs ht hno (a := m / σ ^ 2) (b := 1 / (2 * σ ^ 2)) (by positivity)
    (B := 1 / (2 * (|M| + 1) ^ 2)) (by positivity)
  have hσ' : 0 < √(1 / (2 * e)) := Real.sqrt_pos.2 (by positivity)
  have e2 : √(1 / (2 * e)) ^ 2 = 1 / (2 * e) := Real.sq_sqrt (by positivity)
  refine ⟨t / (2 * e), √(1 / (2 * e)), ?_, hσ', ?_⟩
  · have h1 : |M| + 1 ≤ √(1 / (2 * e)) := by
      refine Real.le_sqrt_of_sq_le ?_
      rw [le_div_iff₀ (by positivity)] at he1 ⊢
      linarith
    linarith [le_abs_self M]
  · have h0 : lik (truncNormalPdf m σ l u) s ≤ lik (truncNormalPdf m σ c d) s := by
      by_cases hne : (l, u) = (c, d)
      · obtain ⟨rfl, rfl⟩ := Prod.mk.inj hne
        exact le_rfl
      · exact (trunc_wider hcd hin' hc hd hσ hne).le
    refine h0.trans_lt ?_
    obtain ⟨p1, l1⟩ := lik_tight hcd s hin' hσ m
    obtain ⟨p2, l2⟩ := lik_tight hcd s hin' hσ' (t / (2 * e))
    rw [← Real.log_lt_log_iff p1 p2, l1, l2, e2]
    have e3 : t / (2 * e) / (1 / (2 * e)) = t := by field_simp
    have e4 : 1 / (2 * (1 / (2 * e))) = e := by field_simp
    rwa [e3, e4]

/-- C142: there is at most one. -/
theorem truncNormal_ml_unique (s : List ℝ) (c d : ℝ) (hcd : c < d) (hin : ∀ x ∈ s, c ≤ x ∧ x ≤ d) (hc : c ∈ s) (hd : d ∈ s)
    (p q : ℝ × ℝ × ℝ × ℝ)
    (hp : Best (fun p : ℝ × ℝ × ℝ × ℝ => 0 < p.2.1 ∧ p.2.2.1 < p.2.2.2)
      (fun p => truncNormalPdf p.1 p.2.1 (p.2.2.1 : ℝ) (p.2.2.2 : ℝ)) s p)
    (hq : Best (fun p : ℝ × ℝ × ℝ × ℝ => 0 < p.2.1 ∧ p.2.2.1 < p.2.2.2)
      (fun p => truncNormalPdf p.1 p.2.1 (p.2.2.1 : ℝ) (p.2.2.2 : ℝ)) s q) : p = q := by
  have hs := List.ne_nil_of_mem hc
  have hin' : ∀ x ∈ s, x ∈ Icc c d := fun x hx => hin x hx
  have hb := truncNormal_ml_bounds s c d hcd hin hc hd p hp
  have hb' := truncNormal_ml_bounds s c d hcd hin hc hd q hq
  obtain ⟨m, σ, lu⟩ := p
  obtain ⟨m', σ', lu'⟩ := q
  simp only at hb hb'
  subst hb hb'
  have hσ : 0 < σ := hp.1.1
  have hσ' : 0 < σ' := hq.1.1
  have h1 := (trunc_best hcd hin' hc hd hσ).1 hp
  have h2 := (trunc_best hcd hin' hc hd hσ').1 hq
  obtain ⟨e1, e2⟩ := tobj_one hcd s hs (by positivity) (by positivity) h1 h2
  have e3 : σ ^ 2 = σ' ^ 2 := by field_simp at e2; linarith
  have e4 : σ = σ' := (sq_eq_sq₀ hσ.le hσ'.le).1 e3
  subst e4
  have e5 : m = m' := by field_simp at e1; exact e1
  rw [e5]

/-- C142: two different values in the sample limit the likelihood. -/
theorem truncNormal_ml_limited (s : List ℝ) (c d : ℝ) (hcd : c < d) (hin : ∀ x ∈ s, c ≤ x ∧ x ≤ d) (hc : c ∈ s) (hd : d ∈ s) :
    ∃ M, ∀ m σ l u : ℝ, 0 < σ → lik (truncNormalPdf m σ l u) s ≤ M := by
  have hin' : ∀ x ∈ s, x ∈ Icc c d := fun x hx => hin x hx
  obtain ⟨⟨p, -, hp⟩, -⟩ := tobj_max hcd s hin' hc hd
  refine ⟨Real.exp (tobj c d s p.1 p.2), fun m σ l u hσ => ?_⟩
  obtain ⟨p1, l1⟩ := lik_tight hcd s hin' hσ m
  have h0 : lik (truncNormalPdf m σ l u) s ≤ lik (truncNormalPdf m σ c d) s := by
    by_cases hne : (l, u) = (c, d)
    · obtain ⟨rfl, rfl⟩ := Prod.mk.inj hne
      exact le_rfl
    · exact (trunc_wider hcd hin' hc hd hσ hne).le
  refine h0.trans ?_
  rw [← Real.exp_log p1, l1]
  exact Real.exp_le_exp.2 (hp (m / σ ^ 2, 1 / (2 * σ ^ 2)) (by positivity))

/-- C142: none if the sample consists of two values only, however often they occur. -/
theorem truncNormal_ml_two (s : List ℝ) (c d : ℝ) (hcd : c < d) (hin : ∀ x ∈ s, x = c ∨ x = d) (hc : c ∈ s) (hd : d ∈ s) :
    ¬∃ p : ℝ × ℝ × ℝ × ℝ, Best (fun p : ℝ × ℝ × ℝ × ℝ => 0 < p.2.1 ∧ p.2.2.1 < p.2.2.2)
      (fun p => truncNormalPdf p.1 p.2.1 (p.2.2.1 : ℝ) (p.2.2.2 : ℝ)) s p := by
  have hs := List.ne_nil_of_mem hc
  have hn : (0 : ℝ) < s.length := by exact_mod_cast List.length_pos_iff.2 hs
  have hin' : ∀ x ∈ s, c ≤ x ∧ x ≤ d := by
    intro x hx
    rcases hin x hx with rfl | rfl
    · exact ⟨le_rfl, hcd.le⟩
    · exact ⟨hcd.le, le_rfl⟩
  obtain ⟨t, ht, -⟩ := tilted_mean_unique s c d hcd hin' hc hd
  rw [truncNormal_ml_iff s c d hcd hin' hc hd t ht, not_lt, tiltedVar_eq hcd, sampleVar_eq s hs, ht]
  have h1 : (s.map fun x => x ^ 2).sum = (s.map fun x => (c + d) * x + -(c * d)).sum := by
    congr 1
    refine List.map_congr_left fun x hx => ?_
    rcases hin x hx with rfl | rfl <;> ring
  have h2 : (s.map fun x => x ^ 2).sum / s.length = (c + d) * sampleMean s - c * d := by
    rw [h1, lsum_add, lsum_mul, lsum_const, List.map_id']
    unfold sampleMean
    field_simp
    ring
  have hz := tz_pos hcd t 0
  have h3 := tilted_quad hcd t (-(c * d)) (c + d) (-1)
  have h4 : 0 ≤ ∫ x in c..d, (-(c * d) + (c + d) * x + -1 * x ^ 2) * Real.exp (tg t 0 x) := by
    refine intervalIntegral.integral_nonneg hcd.le fun x hx => mul_nonneg ?_ (Real.exp_pos _).le
    nlinarith [mul_nonneg (sub_nonneg.2 hx.1) (sub_nonneg.2 hx.2)]
  rw [h3] at h4
  have h5 := nonneg_of_mul_nonneg_left h4 hz
  rw [ht] at h5
  rw [h2]
  linarith

/-- C142: a constant sample can be made as likely as one likes. -/
theorem truncNormal_ml_constant (s : List ℝ) (hs : s ≠ []) (c : ℝ) (hc : ∀ x ∈ s, x = c) (M : ℝ) :
    ∃ m σ l u : ℝ, (0 < σ ∧ l < u) ∧ (∀ x ∈ s, l < x ∧ x < u) ∧ M < lik (truncNormalPdf m σ l u) s := by
  obtain ⟨e, he⟩ : ∃ e, e = 1 / (2 * (|M| + 2)) := ⟨_, rfl⟩
  have hM := abs_nonneg M
  have he0 : 0 < e := he ▸ by positivity
  have hv : 1 < |M| + 2 := by linarith
  refine ⟨c, 1, c - e, c + e, ⟨one_pos, by linarith⟩, fun x hx => by rw [hc x hx]; constructor <;> linarith, ?_⟩
  have hpos := mass_pos' (show c - e < c + e by linarith) one_pos c
  have hval : |M| + 2 ≤ truncNormalPdf c 1 ((c - e : ℝ) : EReal) ((c + e : ℝ) : EReal) c := by
    unfold truncNormalPdf
    rw [inB, if_pos ⟨by linarith, by linarith⟩, le_div_iff₀ hpos]
    have h1 : massBetween c 1 ((c - e : ℝ) : EReal) ((c + e : ℝ) : EReal) ≤ 2 * e * normalPdf c 1 c := by
      rw [mass_eq (by linarith)]
      have h2 : ∫ x in (c - e)..(c + e), normalPdf c 1 x ≤ ∫ x in (c - e)..(c + e), normalPdf c 1 c := by
        refine intervalIntegral.integral_mono_on (by linarith) ((np_cont c 1).intervalIntegrable _ _) (by simp) fun x _ => ?_
        unfold normalPdf
        refine mul_le_mul_of_nonneg_left (Real.exp_le_exp.2 ?_) (by positivity)
        have : 0 ≤ (x - c) ^ 2 := sq_nonneg _
        simp
        linarith
      rw [intervalIntegral.integral_const, smul_eq_mul] at h2
      refine h2.trans (le_of_eq ?_)
      ring
    have h3 : (|M| + 2) * (2 * e) = 1 := by rw [he]; field_simp
    have h4 := np_pos one_pos c c
    nlinarith
  have : ∀ t : List ℝ, t ≠ [] → (∀ x ∈ t, x = c) →
      |M| + 2 ≤ lik (truncNormalPdf c 1 ((c - e : ℝ) : EReal) ((c + e : ℝ) : EReal)) t := by
    intro t
    induction t with
    | nil => intro h; exact absurd rfl h
    | cons a t ih =>
      intro _ h
      have e1 : lik (truncNormalPdf c 1 ((c - e : ℝ) : EReal) ((c + e : ℝ) : EReal)) (a :: t) =
        truncNormalPdf c 1 ((c - e : ℝ) : EReal) ((c + e : ℝ) : EReal) a *
          lik (truncNormalPdf c 1 ((c - e : ℝ) : EReal) ((c + e : ℝ) : EReal)) t := by simp [lik]
      rw [e1, h a (by simp)]
      by_cases ht : t = []
      · subst ht
        simpa [lik] using hval
      · have := ih ht fun x hx => h x (List.mem_cons_of_mem _ hx)
        nlinarith
  linarith [this s hs hc, le_abs_self M]

-- two values: none
example : ¬∃ p : ℝ × ℝ × ℝ × ℝ, Best (fun p : ℝ × ℝ × ℝ × ℝ => 0 < p.2.1 ∧ p.2.2.1 < p.2.2.2)
    (fun p => truncNormalPdf p.1 p.2.1 (p.2.2.1 : ℝ) (p.2.2.2 : ℝ)) [0, 1, 0] p :=
  truncNormal_ml_two _ 0 1 (by norm_num) (by simp) (by simp) (by simp)

-- five values around the middle: the exponential law is the uniform one
example : ∃ p : ℝ × ℝ × ℝ × ℝ, Best (fun p : ℝ × ℝ × ℝ × ℝ => 0 < p.2.1 ∧ p.2.2.1 < p.2.2.2)
    (fun p => truncNormalPdf p.1 p.2.1 (p.2.2.1 : ℝ) (p.2.2.2 : ℝ)) [-1, 0, 0, 0, 0, 0, 0, 1] p := by
  have hm : tiltedMean 0 (-1) 1 = 0 := by norm_num [tiltedMean, tilted]
  refine (truncNormal_ml_iff _ (-1) 1 (by norm_num) ?_ (by simp) (by simp) 0 ?_).2 ?_
  · intro x hx
    simp only [List.mem_cons, List.not_mem_nil, or_false] at hx
    rcases hx with rfl | rfl | rfl | rfl | rfl | rfl | rfl | rfl <;> norm_num
  · rw [hm]
    norm_num [sampleMean]
  · have hv : tiltedVar 0 (-1) 1 = 1 / 3 := by
      unfold tiltedVar
      rw [hm]
      norm_num [tilted]
    rw [hv]
    norm_num [sampleVar, sampleMean]

/-! ## SkewNormal and SkewStudentT -/

theorem skewNormal_pos {σ : ℝ} (hσ : 0 < σ) (al m x : ℝ) : 0 < skewNormalPdf al m σ x := by
  unfold skewNormalPdf
  have := SkewLaw.Phi_pos ((x - m) / σ * al)
  have := np_pos hσ m x
  positivity

/-- a location outside the sample: more skewness is more likely -/
private theorem skew_outside (s : List ℝ) (c d : ℝ) (hcd : c < d) (hin : ∀ x ∈ s, c ≤ x ∧ x ≤ d) (hc : c ∈ s) (hd : d ∈ s)
    (al m : ℝ) {σ : ℝ} (hσ : 0 < σ) (hout : ¬(c < m ∧ m < d)) :
    ∃ al', lik (skewNormalPdf al m σ) s < lik (skewNormalPdf al' m σ) s := by
  have step : ∀ al', (∀ x ∈ s, (x - m) / σ * al ≤ (x - m) / σ * al') → (∃ x ∈ s, (x - m) / σ * al < (x - m) / σ * al') →
      lik (skewNormalPdf al m σ) s < lik (skewNormalPdf al' m σ) s := by
    rintro al' h ⟨y, hy, hlt⟩
    have hpos := fun x (_ : x ∈ s) => skewNormal_pos hσ al m x
    have hpos' := fun x (_ : x ∈ s) => skewNormal_pos hσ al' m x
    rw [← Real.log_lt_log_iff (lik_pos' hpos) (lik_pos' hpos'), log_lik' hpos, log_lik' hpos']
    refine sum_lt_map (fun x hx => ?_) hy ?_
    · refine Real.log_le_log (hpos x hx) ?_
      unfold skewNormalPdf
      have := SkewLaw.Phi_mono.monotone (h x hx)
      have := np_pos hσ m x
      gcongr
    · refine Real.log_lt_log (hpos y hy) ?_
      unfold skewNormalPdf
      have := SkewLaw.Phi_mono hlt
      have := np_pos hσ m y
      gcongr
  by_cases h : m ≤ c
  · refine ⟨al + 1, step (al + 1) (fun x hx => ?_) ⟨d, hd, ?_⟩⟩
    · have := div_nonneg (sub_nonneg.2 (h.trans (hin x hx).1)) hσ.le
      nlinarith
    · have := div_pos (sub_pos.2 (h.trans_lt hcd)) hσ
      nlinarith
  · have h : d ≤ m := not_lt.1 fun h' => hout ⟨not_le.1 h, h'⟩
    refine ⟨al - 1, step (al - 1) (fun x hx => ?_) ⟨c, hc, ?_⟩⟩
    · have := div_nonneg (sub_nonneg.2 ((hin x hx).2.trans h)) hσ.le
      have e : (x - m) / σ = -((m - x) / σ) := by ring
      rw [e]
      nlinarith
    · have := div_pos (sub_pos.2 (hcd.trans_le h)) hσ
      have e : (c - m) / σ = -((m - c) / σ) := by ring
      rw [e]
      nlinarith

/-- C142: the location of a most likely SkewNormal lies strictly between the smallest and the largest value of the sample. -/
theorem skewNormal_ml_inside (s : List ℝ) (c d : ℝ) (hcd : c < d) (hin : ∀ x ∈ s, c ≤ x ∧ x ≤ d) (hc : c ∈ s) (hd : d ∈ s)
    (p : ℝ × ℝ × ℝ)
    (hp : Best (fun p : ℝ × ℝ × ℝ => 0 < p.2.2) (fun p => skewNormalPdf p.1 p.2.1 p.2.2) s p) : c < p.2.1 ∧ p.2.1 < d := by
  by_contra hout
  obtain ⟨al', h⟩ := skew_outside s c d hcd hin hc hd p.1 p.2.1 hp.1 hout
  exact absurd (hp.2 (al', p.2) hp.1) (not_le.2 h)

/-- C142: for two different values every SkewNormal is beaten by another one, whose scale is not smaller or is at least `7 / 10` of
the distance of the values. -/
theorem skewNormal_ml_better (c d : ℝ) (hcd : c < d) (al m σ : ℝ) (hσ : 0 < σ) :
    ∃ al' m' σ', 0 < σ' ∧ (σ ≤ σ' ∨ 7 / 10 * (d - c) ≤ σ') ∧ lik (skewNormalPdf al m σ) [c, d] < lik (skewNormalPdf al' m' σ') [c, d] := by
  by_cases hins : c < m ∧ m < d
  swap
  · obtain ⟨al', h⟩ := skew_outside [c, d] c d hcd (by
      intro x hx
      simp only [List.mem_cons, List.not_mem_nil, or_false] at hx
      rcases hx with rfl | rfl
      · exact ⟨le_rfl, hcd.le⟩
      · exact ⟨hcd.le, le_rfl⟩) (by simp) (by simp) al m hσ hins
    exact ⟨al', m, σ, hσ, Or.inl le_rfl, h⟩
  obtain ⟨i1, i2⟩ := hins
  obtain ⟨D, hD⟩ : ∃ D, D = d - c := ⟨_, rfl⟩
  have hD0 : 0 < D := by rw [hD]; linarith
  have hform : ∀ al m σ : ℝ, 0 < σ → lik (skewNormalPdf al m σ) [c, d] =
      stdNormalCdf ((c - m) / σ * al) * stdNormalCdf ((d - m) / σ * al) *
        (2 / (Real.pi * σ ^ 2) * Real.exp (-((c - m) ^ 2 + (d - m) ^ 2) / (2 * σ ^ 2))) := by
    intro al m σ hσ
    have e1 : Real.exp (-((c - m) ^ 2 + (d - m) ^ 2) / (2 * σ ^ 2)) =
        Real.exp (-(c - m) ^ 2 / (2 * σ ^ 2)) * Real.exp (-(d - m) ^ 2 / (2 * σ ^ 2)) := by
      rw [← Real.exp_add]
      congr 1
      ring
    have e2 : √(2 * Real.pi) ^ 2 = 2 * Real.pi := Real.sq_sqrt (by positivity)
    simp only [lik, List.map_cons, List.map_nil, List.prod_cons, List.prod_nil, mul_one, skewNormalPdf, normalPdf]
    rw [e1]
    have e3 : 1 / (σ * √(2 * Real.pi)) * (1 / (σ * √(2 * Real.pi))) = 1 / (2 * (Real.pi * σ ^ 2)) := by
      rw [← sq, div_pow, mul_pow, e2]
      ring
    calc _ = 4 * (stdNormalCdf ((c - m) / σ * al) * stdNormalCdf ((d - m) / σ * al)) *
          (1 / (σ * √(2 * Real.pi)) * (1 / (σ * √(2 * Real.pi)))) *
          (Real.exp (-(c - m) ^ 2 / (2 * σ ^ 2)) * Real.exp (-(d - m) ^ 2 / (2 * σ ^ 2))) := by ring
      _ = _ := by
        rw [e3]
        field_simp
        ring
  -- an upper bound for distributions in between
  have hΦ : stdNormalCdf ((c - m) / σ * al) * stdNormalCdf ((d - m) / σ * al) < 1 / 2 := by
    have z1 : (c - m) / σ < 0 := div_neg_of_neg_of_pos (by linarith) hσ
    have z2 : 0 < (d - m) / σ := div_pos (by linarith) hσ
    have p1 := SkewLaw.Phi_pos ((c - m) / σ * al)
    have p2 := SkewLaw.Phi_pos ((d - m) / σ * al)
    have q1 := SkewLaw.Phi_lt_one ((c - m) / σ * al)
    have q2 := SkewLaw.Phi_lt_one ((d - m) / σ * al)
    rcases le_total 0 al with h | h
    · have := SkewLaw.Phi_mono.monotone (show (c - m) / σ * al ≤ 0 by nlinarith)
      rw [SkewLaw.Phi_zero] at this
      nlinarith
    · have := SkewLaw.Phi_mono.monotone (show (d - m) / σ * al ≤ 0 by nlinarith)
      rw [SkewLaw.Phi_zero] at this
      nlinarith
  have hup : lik (skewNormalPdf al m σ) [c, d] < 4 / (Real.pi * D ^ 2) * Real.exp (-1) := by
    rw [hform al m σ hσ]
    have e1 : 2 / (Real.pi * σ ^ 2) * Real.exp (-((c - m) ^ 2 + (d - m) ^ 2) / (2 * σ ^ 2)) ≤
        2 * (4 / (Real.pi * D ^ 2) * Real.exp (-1)) := by
      have h1 : Real.exp (-((c - m) ^ 2 + (d - m) ^ 2) / (2 * σ ^ 2)) ≤ Real.exp (-(D ^ 2 / (4 * σ ^ 2))) := by
        refine Real.exp_le_exp.2 ?_
        rw [neg_div, neg_le_neg_iff, div_le_div_iff₀ (by positivity) (by positivity), hD]
        nlinarith [sq_nonneg (c + d - 2 * m), sq_nonneg σ, mul_nonneg (sq_nonneg σ) (sq_nonneg (c + d - 2 * m))]
      have h2 := Real.add_one_le_exp (D ^ 2 / (4 * σ ^ 2) - 1)
      rw [sub_add_cancel, sub_eq_add_neg, Real.exp_add] at h2
      have h3 : Real.exp (D ^ 2 / (4 * σ ^ 2)) * Real.exp (-(D ^ 2 / (4 * σ ^ 2))) = 1 := by rw [← Real.exp_add]; simp
      have h4 : D ^ 2 / (4 * σ ^ 2) * Real.exp (-(D ^ 2 / (4 * σ ^ 2))) ≤ Real.exp (-1) := by
        have := mul_le_mul_of_nonneg_right h2 (Real.exp_pos (-(D ^ 2 / (4 * σ ^ 2)))).le
        calc _ ≤ _ := this
          _ = Real.exp (-1) * (Real.exp (D ^ 2 / (4 * σ ^ 2)) * Real.exp (-(D ^ 2 / (4 * σ ^ 2)))) := by ring
          _ = _ := by rw [h3, mul_one]
      calc _ ≤ 2 / (Real.pi * σ ^ 2) * Real.exp (-(D ^ 2 / (4 * σ ^ 2))) := mul_le_mul_of_nonneg_left h1 (by positivity)
        _ = 8 / (Real.pi * D ^ 2) * (D ^ 2 / (4 * σ ^ 2) * Real.exp (-(D ^ 2 / (4 * σ ^ 2)))) := by field_simp; ring
        _ ≤ 8 / (Real.pi * D ^ 2) * Real.exp (-1) := mul_le_mul_of_nonneg_left h4 (by positivity)
        _ = _ := by ring
    have e2 : 0 < 2 / (Real.pi * σ ^ 2) * Real.exp (-((c - m) ^ 2 + (d - m) ^ 2) / (2 * σ ^ 2)) := by positivity
    nlinarith
  -- distributions to the left come as close to it as one likes
  obtain ⟨L, hL⟩ : ∃ L, L = lik (skewNormalPdf al m σ) [c, d] := ⟨_, rfl⟩
  rw [← hL] at hup
  have hcont : Filter.Tendsto (fun δ : ℝ => 4 / (Real.pi * D ^ 2) * Real.exp (-(δ ^ 2 + (D + δ) ^ 2) / D ^ 2))
      (nhdsWithin 0 (Ioi 0)) (nhds (4 / (Real.pi * D ^ 2) * Real.exp (-1))) := by
    have h1 : Continuous fun δ : ℝ => 4 / (Real.pi * D ^ 2) * Real.exp (-(δ ^ 2 + (D + δ) ^ 2) / D ^ 2) := by fun_prop
    have h2 := h1.tendsto 0
    have e : -((0 : ℝ) ^ 2 + (D + 0) ^ 2) / D ^ 2 = -1 := by field_simp; ring
    simp only [e] at h2
    exact h2.mono_left nhdsWithin_le_nhds
  obtain ⟨δ, hδ1, hδ0⟩ := ((hcont.eventually (lt_mem_nhds hup)).and self_mem_nhdsWithin).exists
  have hδ0 : 0 < δ := hδ0
  have hτ : 0 < D / √2 := by positivity
  have hlim : Filter.Tendsto (fun A : ℝ => lik (skewNormalPdf A (c - δ) (D / √2)) [c, d]) Filter.atTop
      (nhds (4 / (Real.pi * D ^ 2) * Real.exp (-(δ ^ 2 + (D + δ) ^ 2) / D ^ 2))) := by
    have e0 : (D / √2) ^ 2 = D ^ 2 / 2 := by rw [div_pow, Real.sq_sqrt (by norm_num)]
    have e1 : 2 / (Real.pi * (D / √2) ^ 2) * Real.exp (-((c - (c - δ)) ^ 2 + (d - (c - δ)) ^ 2) / (2 * (D / √2) ^ 2)) =
        4 / (Real.pi * D ^ 2) * Real.exp (-(δ ^ 2 + (D + δ) ^ 2) / D ^ 2) := by
      rw [e0, show c - (c - δ) = δ by ring, show d - (c - δ) = D + δ by rw [hD]; ring,
        show 2 * (D ^ 2 / 2) = D ^ 2 by ring]
      congr 1
      field_simp
      ring
    simp only [fun A => hform A (c - δ) _ hτ, e1]
    have t : ∀ z : ℝ, 0 < z → Filter.Tendsto (fun A : ℝ => stdNormalCdf (z * A)) Filter.atTop (nhds 1) := fun z hz =>
      SkewLaw.Phi_top.comp (Filter.tendsto_id.const_mul_atTop hz)
    have := ((t ((c - (c - δ)) / (D / √2)) (div_pos (by linarith) hτ)).mul
      (t ((d - (c - δ)) / (D / √2)) (div_pos (by linarith) hτ))).mul_const
      (4 / (Real.pi * D ^ 2) * Real.exp (-(δ ^ 2 + (D + δ) ^ 2) / D ^ 2))
    simpa using this
  obtain ⟨A, hA⟩ := (hlim.eventually (lt_mem_nhds hδ1)).exists
  refine ⟨A, c - δ, D / √2, hτ, Or.inr ?_, hL ▸ hA⟩
  rw [← hD, le_div_iff₀ (by positivity)]
  have : √2 ≤ 10 / 7 := Real.sqrt_le_iff.2 ⟨by norm_num, by norm_num⟩
  nlinarith

/-- C142: a sample of two different values has no most likely SkewNormal. -/
theorem skewNormal_ml_two (c d : ℝ) (hcd : c < d) :
    ¬∃ p : ℝ × ℝ × ℝ, Best (fun p : ℝ × ℝ × ℝ => 0 < p.2.2) (fun p => skewNormalPdf p.1 p.2.1 p.2.2) [c, d] p := by
  rintro ⟨p, hp⟩
  obtain ⟨al', m', σ', h1, -, h2⟩ := skewNormal_ml_better c d hcd p.1 p.2.1 p.2.2 hp.1
  exact absurd (hp.2 (al', m', σ') h1) (not_le.2 h2)

private theorem skew_zero (m σ : ℝ) : skewNormalPdf 0 m σ = normalPdf m σ := by
  funext x
  unfold skewNormalPdf
  rw [mul_zero, SkewLaw.Phi_zero]
  ring

/-- C142: a constant sample can be made as likely as one likes. -/
theorem skewNormal_ml_constant (s : List ℝ) (hs : s ≠ []) (c : ℝ) (hc : ∀ x ∈ s, x = c) (M : ℝ) :
    ∃ al m σ, 0 < σ ∧ M < lik (skewNormalPdf al m σ) s := by
  obtain ⟨r, hr⟩ : ∃ r, r = √(2 * Real.pi) := ⟨_, rfl⟩
  have hr0 : 0 < r := hr ▸ by positivity
  refine ⟨0, c, 1 / ((|M| + 2) * r), by positivity, ?_⟩
  rw [skew_zero]
  have hval : normalPdf c (1 / ((|M| + 2) * r)) c = |M| + 2 := by
    unfold normalPdf
    rw [← hr]
    simp
    field_simp
  have hv := abs_nonneg M
  have : ∀ t : List ℝ, t ≠ [] → (∀ x ∈ t, x = c) → |M| + 2 ≤ lik (normalPdf c (1 / ((|M| + 2) * r))) t := by
    intro t
    induction t with
    | nil => intro h; exact absurd rfl h
    | cons a t ih =>
      intro _ h
      have e1 : lik (normalPdf c (1 / ((|M| + 2) * r))) (a :: t) =
        normalPdf c (1 / ((|M| + 2) * r)) a * lik (normalPdf c (1 / ((|M| + 2) * r))) t := by simp [lik]
      rw [e1, h a (by simp), hval]
      by_cases ht : t = []
      · subst ht
        simp [lik]
      · have := ih ht fun x hx => h x (List.mem_cons_of_mem _ hx)
        nlinarith
  linarith [this s hs hc, le_abs_self M]

/-- C142: SkewStudentT distributions can make any sample as likely as one likes. -/
theorem skewStudent_ml_unbounded (s : List ℝ) (hs : s ≠ []) (M : ℝ) :
    ∃ a b m σ, (0 < a ∧ 0 < b ∧ 0 < σ) ∧ M < lik (skewStudentPdf a b m σ) s := by
  obtain ⟨n, m, σ, h1, h2, h3⟩ := student_ml_unbounded s hs M
  refine ⟨n / 2, n / 2, m, σ, ⟨by positivity, by positivity, h2⟩, ?_⟩
  rw [SkewStudent.equal_student (by positivity) m h2, show 2 * (n / 2) = n by ring]
  exact h3

example : ¬∃ p : ℝ × ℝ × ℝ, Best (fun p : ℝ × ℝ × ℝ => 0 < p.2.2) (fun p => skewNormalPdf p.1 p.2.1 p.2.2) [-1, 5] p :=
  skewNormal_ml_two _ _ (by norm_num)

example : ∃ a b m σ, (0 < a ∧ 0 < b ∧ 0 < σ) ∧ 1000 < lik (skewStudentPdf a b m σ) [1, 2, 3] :=
  skewStudent_ml_unbounded _ (by simp) _

end Verif.Props
