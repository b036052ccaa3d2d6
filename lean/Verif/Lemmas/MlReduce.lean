import Verif.Spec.MlExist
import Verif.Lemmas.MlGammaBeta
import Mathlib.Tactic

/-!
# From likelihoods to the functions that are maximised
-/

namespace Verif.Ml
open Set Verif.Spec

theorem lik_pos {f : ℝ → ℝ} {s : List ℝ} (h : ∀ x ∈ s, 0 < f x) : 0 < lik f s := by
  unfold lik
  induction s with
  | nil => simp
  | cons a t ih =>
    simp only [List.map_cons, List.prod_cons]
    exact mul_pos (h a List.mem_cons_self) (ih fun x hx => h x (List.mem_cons_of_mem _ hx))

theorem log_lik {f : ℝ → ℝ} {s : List ℝ} (h : ∀ x ∈ s, 0 < f x) : Real.log (lik f s) = (s.map fun x => Real.log (f x)).sum := by
  unfold lik
  induction s with
  | nil => simp
  | cons a t ih =>
    have ht : ∀ x ∈ t, 0 < f x := fun x hx => h x (List.mem_cons_of_mem _ hx)
    have h2 : 0 < (t.map f).prod := lik_pos ht
    simp only [List.map_cons, List.prod_cons, List.sum_cons]
    rw [Real.log_mul (h a List.mem_cons_self).ne' h2.ne', ih ht]

/-- `U`: where the reduced function `G` is maximised; `Adm`: parameters that give the sample a positive likelihood -/
structure Red (F : MlFam) (s : List ℝ) (U Adm : ℝ × ℝ → Prop) (G : ℝ × ℝ → ℝ) (T R : ℝ × ℝ → ℝ × ℝ) (K C : ℝ) : Prop where
  hK : 0 < K
  good : ∀ p, Adm p → F.Good p.1 p.2
  pos : ∀ p, Adm p → 0 < lik (F.pdf p.1 p.2) s
  val : ∀ p, Adm p → Real.log (lik (F.pdf p.1 p.2) s) = K * G (T p) + C
  zero : ∀ p, F.Good p.1 p.2 → ¬ Adm p → lik (F.pdf p.1 p.2) s = 0
  tU : ∀ p, Adm p → U (T p)
  rA : ∀ p, U p → Adm (R p)
  rt : ∀ p, Adm p → R (T p) = p
  tr : ∀ p, U p → T (R p) = p

variable {F : MlFam} {s : List ℝ} {U Adm : ℝ × ℝ → Prop} {G : ℝ × ℝ → ℝ} {T R : ℝ × ℝ → ℝ × ℝ} {K C : ℝ}

theorem Red.lik_eq (h : Red F s U Adm G T R K C) {p : ℝ × ℝ} (hp : Adm p) :
    lik (F.pdf p.1 p.2) s = Real.exp (K * G (T p) + C) := by
  rw [← h.val p hp, Real.exp_log (h.pos p hp)]

theorem Red.le_iff (h : Red F s U Adm G T R K C) {p q : ℝ × ℝ} (hp : Adm p) (hq : Adm q) :
    lik (F.pdf p.1 p.2) s ≤ lik (F.pdf q.1 q.2) s ↔ G (T p) ≤ G (T q) := by
  rw [h.lik_eq hp, h.lik_eq hq, Real.exp_le_exp, add_le_add_iff_right, mul_le_mul_iff_right₀ h.hK]

theorem Red.iff (h : Red F s U Adm G T R K C) (hne : ∃ p, U p) (p : ℝ × ℝ) :
    F.MostLikely s p ↔ Adm p ∧ ∀ q, U q → G q ≤ G (T p) := by
  obtain ⟨p0, h0⟩ := hne
  constructor
  · rintro ⟨h1, h2⟩
    have hA : Adm p := by
      by_contra hn
      have h3 := h2 (R p0).1 (R p0).2 (h.good _ (h.rA _ h0))
      rw [h.zero p h1 hn] at h3
      exact absurd (h.pos _ (h.rA _ h0)) (not_lt.2 h3)
    refine ⟨hA, fun q hq => ?_⟩
    have h3 := h2 (R q).1 (R q).2 (h.good _ (h.rA _ hq))
    rw [h.le_iff (h.rA _ hq) hA, h.tr q hq] at h3
    exact h3
  · rintro ⟨h1, h2⟩
    refine ⟨h.good p h1, fun a b hab => ?_⟩
    by_cases hA : Adm (a, b)
    · exact (h.le_iff hA h1).2 (h2 _ (h.tU _ hA))
    · have := h.zero (a, b) hab hA
      simp only at this
      rw [this]
      exact (h.pos p h1).le

theorem Red.existsUnique (h : Red F s U Adm G T R K C) (hex : ∃ p, U p ∧ ∀ q, U q → G q ≤ G p)
    (hun : ∀ p q, U p → U q → (∀ r, U r → G r ≤ G p) → (∀ r, U r → G r ≤ G q) → p = q) : ∃! p, F.MostLikely s p := by
  obtain ⟨p, hp, hm⟩ := hex
  have hne : ∃ p, U p := ⟨p, hp⟩
  refine ⟨R p, (h.iff hne _).2 ⟨h.rA p hp, fun q hq => ?_⟩, fun q hq => ?_⟩
  · rw [h.tr p hp]
    exact hm q hq
  · obtain ⟨h1, h2⟩ := (h.iff hne q).1 hq
    have h3 := hun p (T q) hp (h.tU q h1) hm h2
    rw [h3, h.rt q h1]

theorem Red.unbounded (h : Red F s U Adm G T R K C) (hun : ∀ M, ∃ p, U p ∧ M < G p) (M : ℝ) :
    ∃ a b, F.Good a b ∧ M < lik (F.pdf a b) s := by
  obtain ⟨p, hp, hM⟩ := hun ((Real.log (|M| + 1) - C) / K)
  refine ⟨(R p).1, (R p).2, h.good _ (h.rA p hp), ?_⟩
  rw [h.lik_eq (h.rA p hp), h.tr p hp]
  rw [div_lt_iff₀ h.hK] at hM
  have h1 : Real.log (|M| + 1) < K * G p + C := by linarith
  have h2 := Real.exp_lt_exp.2 h1
  rw [Real.exp_log (by positivity)] at h2
  have := le_abs_self M
  linarith

/-- location and scale after a change `τ` of the values -/
theorem red_convex {F : MlFam} {s : List ℝ} {φ τ c : ℝ → ℝ} {T R : ℝ × ℝ → ℝ × ℝ}
    (hv : ∀ p : ℝ × ℝ, F.Good p.1 p.2 → 0 < (T p).1 ∧ ∀ x ∈ s, F.pdf p.1 p.2 x =
      Real.exp (Real.log (T p).1 - φ ((T p).1 * τ x + (T p).2) + c x))
    (hr : ∀ p : ℝ × ℝ, 0 < p.1 → F.Good (R p).1 (R p).2 ∧ T (R p) = p) (hrt : ∀ p : ℝ × ℝ, F.Good p.1 p.2 → R (T p) = p) :
    Red F s (fun p => 0 < p.1) (fun p => F.Good p.1 p.2) (obj φ (s.map τ)) T R 1 ((s.map c).sum) where
  hK := one_pos
  good _ h := h
  pos p h := lik_pos fun x hx => by rw [(hv p h).2 x hx]; exact Real.exp_pos _
  val p h := by
    rw [log_lik fun x hx => by rw [(hv p h).2 x hx]; exact Real.exp_pos _]
    have h1 : (s.map fun x => Real.log (F.pdf p.1 p.2 x)) =
        s.map fun x => Real.log (T p).1 - φ ((T p).1 * τ x + (T p).2) + c x :=
      List.map_congr_left fun x hx => by rw [(hv p h).2 x hx, Real.log_exp]
    rw [h1, one_mul]
    unfold obj
    have : ∀ l : List ℝ, (l.map fun x => Real.log (T p).1 - φ ((T p).1 * τ x + (T p).2) + c x).sum =
        (l.map τ).length * Real.log (T p).1 - ((l.map τ).map fun x => φ ((T p).1 * x + (T p).2)).sum + (l.map c).sum := by
      intro l
      induction l with
      | nil => simp
      | cons a t ih =>
        simp only [List.map_cons, List.sum_cons, List.length_cons, Nat.cast_add, Nat.cast_one] at ih ⊢
        rw [ih]
        ring
    exact this s
  zero p h h' := absurd h h'
  tU p h := (hv p h).1
  rA p h := (hr p h).1
  rt p h := hrt p h
  tr p h := (hr p h).2

/-- exponential families after a change `ρ` of the values -/
theorem red_exp {F : MlFam} {s : List ℝ} (hs : s ≠ []) {t1 t2 c ρ : ℝ → ℝ} {Z : ℝ → ℝ → ℝ}
    (hg : ∀ a b, F.Good a b ↔ 0 < a ∧ 0 < b)
    (hv : ∀ a b, 0 < a → 0 < b → 0 < Z a b ∧ ∀ x ∈ s, F.pdf a b x = Real.exp (a * t1 (ρ x) + b * t2 (ρ x) + c x) / Z a b) :
    Red F s (fun p => 0 < p.1 ∧ 0 < p.2) (fun p => F.Good p.1 p.2)
      (expObj Z ((s.map fun x => t1 (ρ x)).sum / s.length) ((s.map fun x => t2 (ρ x)).sum / s.length)) id id s.length
      ((s.map c).sum) where
  hK := by exact_mod_cast List.length_pos_iff.2 hs
  good _ h := h
  pos p h := lik_pos fun x hx => by
    obtain ⟨h1, h2⟩ := hv p.1 p.2 ((hg _ _).1 h).1 ((hg _ _).1 h).2
    rw [h2 x hx]
    positivity
  val p h := by
    obtain ⟨h1, h2⟩ := hv p.1 p.2 ((hg _ _).1 h).1 ((hg _ _).1 h).2
    rw [log_lik fun x hx => by rw [h2 x hx]; positivity]
    have h3 : (s.map fun x => Real.log (F.pdf p.1 p.2 x)) =
        s.map fun x => p.1 * t1 (ρ x) + p.2 * t2 (ρ x) + c x - Real.log (Z p.1 p.2) :=
      List.map_congr_left fun x hx => by
        rw [h2 x hx, Real.log_div (Real.exp_pos _).ne' h1.ne', Real.log_exp]
    have h4 : ∀ l : List ℝ, (l.map fun x => p.1 * t1 (ρ x) + p.2 * t2 (ρ x) + c x - Real.log (Z p.1 p.2)).sum =
        -(l.length * Real.log (Z p.1 p.2)) + p.1 * (l.map fun x => t1 (ρ x)).sum + p.2 * (l.map fun x => t2 (ρ x)).sum +
          (l.map c).sum := by
      intro l
      induction l with
      | nil => simp
      | cons a t ih =>
        simp only [List.map_cons, List.sum_cons, List.length_cons, Nat.cast_add, Nat.cast_one] at ih ⊢
        rw [ih]
        ring
    have hn : (s.length : ℝ) ≠ 0 := by exact_mod_cast (List.length_pos_iff.2 hs).ne'
    rw [h3, h4]
    unfold expObj
    simp only [id]
    field_simp
  zero p h h' := absurd h h'
  tU p h := (hg _ _).1 h
  rA p h := (hg _ _).2 h
  rt _ _ := rfl
  tr _ _ := rfl

/-- rate `p.1` against a location `p.2` with its own optimum -/
noncomputable def rateObj (v : ℝ) (g : ℝ → ℝ) (p : ℝ × ℝ) : ℝ := Real.log p.1 - p.1 * (v + g p.2)

theorem rate_max {v m : ℝ} {g : ℝ → ℝ} (hv : 0 < v) (hm : g m = 0) {V : ℝ → Prop} (hg : ∀ t, V t → 0 ≤ g t) (p : ℝ × ℝ)
    (hp : 0 < p.1) (hV : V p.2) : rateObj v g p ≤ rateObj v g (1 / v, m) := by
  unfold rateObj
  simp only [hm, add_zero]
  have h1 : Real.log (p.1 * v) ≤ p.1 * v - 1 := Real.log_le_sub_one_of_pos (by positivity)
  rw [Real.log_mul hp.ne' hv.ne'] at h1
  rw [one_div, Real.log_inv, inv_mul_cancel₀ hv.ne']
  have := mul_nonneg hp.le (hg _ hV)
  nlinarith

theorem rate_unique {v m : ℝ} {g : ℝ → ℝ} (hv : 0 < v) (hm : g m = 0) {V : ℝ → Prop} (hg : ∀ t, V t → t ≠ m → 0 < g t)
    (p : ℝ × ℝ) (hp : 0 < p.1) (hV : V p.2) (he : rateObj v g (1 / v, m) ≤ rateObj v g p) : p = (1 / v, m) := by
  by_contra hne
  unfold rateObj at he
  simp only [hm, add_zero] at he
  rw [one_div, Real.log_inv, inv_mul_cancel₀ hv.ne'] at he
  have h1 : Real.log (p.1 * v) ≤ p.1 * v - 1 := Real.log_le_sub_one_of_pos (by positivity)
  have h1' : p.1 * v ≠ 1 → Real.log (p.1 * v) < p.1 * v - 1 := fun h => Real.log_lt_sub_one_of_pos (by positivity) h
  rw [Real.log_mul hp.ne' hv.ne'] at h1 h1'
  by_cases hpm : p.2 = m
  · rw [hpm, hm] at he
    by_cases hpv : p.1 * v = 1
    · refine hne (Prod.ext ?_ hpm)
      field_simp
      exact hpv
    · have := h1' hpv
      linarith
  · have := mul_pos hp (hg _ hV hpm)
    nlinarith

theorem rate_unbounded {m : ℝ} {g : ℝ → ℝ} (hm : g m = 0) (M : ℝ) : ∃ p : ℝ × ℝ, (0 < p.1 ∧ p.2 = m) ∧ M < rateObj 0 g p := by
  refine ⟨(Real.exp (M + 1), m), ⟨Real.exp_pos _, rfl⟩, ?_⟩
  unfold rateObj
  simp only [hm, Real.log_exp]
  linarith

end Verif.Ml
