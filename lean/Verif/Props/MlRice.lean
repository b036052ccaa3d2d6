import Verif.Lemmas.MlRice
import Verif.Props.MlRun
import Mathlib.Tactic

/-!
# C143: most likely Rice distributions
-/

set_option linter.unusedSimpArgs false

namespace Verif.Props
open Verif Verif.Param Verif.NumFit Verif.Refit Verif.Spec Verif.Ml Set

/-! ## Rice -/

theorem rice_pos (nu : ℝ) {sigma x : ℝ} (hs : 0 < sigma) (hx : 0 < x) : 0 < ricePdf nu sigma x := by
  unfold ricePdf
  rw [if_pos hx]
  have := Ratio.pos0 (x * nu / sigma ^ 2)
  positivity

private theorem rice_log (s : List ℝ) (hs : ∀ x ∈ s, 0 < x) (nu : ℝ) {sigma : ℝ} (h : 0 < sigma) :
    Real.log (lik (ricePdf nu sigma) s) = (s.map Real.log).sum + riceObj s (nu, sigma ^ 2) := by
  rw [log_lik' fun x hx => rice_pos nu h (hs x hx)]
  unfold riceObj
  rw [← lsum_add]
  congr 1
  refine List.map_congr_left fun x hx => ?_
  have hx := hs x hx
  have hI := Ratio.pos0 (x * nu / sigma ^ 2)
  unfold ricePdf
  rw [if_pos hx, Real.log_mul (by positivity) hI.ne', Real.log_mul (by positivity) (by positivity), Real.log_exp,
    Real.log_div hx.ne' (by positivity)]
  ring

private theorem rice_le_iff (s : List ℝ) (hs : ∀ x ∈ s, 0 < x) (nu nu' : ℝ) {sigma sigma' : ℝ} (h : 0 < sigma) (h' : 0 < sigma') :
    lik (ricePdf nu sigma) s ≤ lik (ricePdf nu' sigma') s ↔ riceObj s (nu, sigma ^ 2) ≤ riceObj s (nu', sigma' ^ 2) := by
  have p1 := lik_pos' fun x hx => rice_pos nu h (hs x hx)
  have p2 := lik_pos' fun x hx => rice_pos nu' h' (hs x hx)
  rw [← Real.log_le_log_iff p1 p2, rice_log s hs nu h, rice_log s hs nu' h']
  constructor <;> intro h <;> linarith

/-- C143: with `nu = 0` admitted, positive values of which two differ have a most likely Rice distribution. -/
theorem rice_ml_exists (s : List ℝ) (hs : ∀ x ∈ s, 0 < x) (hne : ∃ x ∈ s, ∃ y ∈ s, x ≠ y) :
    ∃ p, Best (fun p : ℝ × ℝ => 0 ≤ p.1 ∧ 0 < p.2) (fun p => ricePdf p.1 p.2) s p := by
  obtain ⟨x, hx, y, hy, hxy⟩ := hne
  obtain ⟨p, ⟨h1, h2⟩, hm⟩ := rice_obj_max s hs hx hy hxy
  refine ⟨(p.1, √p.2), ⟨h1, Real.sqrt_pos.2 h2⟩, fun q hq => ?_⟩
  rw [rice_le_iff s hs _ _ hq.2 (Real.sqrt_pos.2 h2), Real.sq_sqrt h2.le]
  exact hm _ hq.1 (pow_pos hq.2 2)

/-- C143: a most likely Rice distribution has the mean square of the sample, whether `nu = 0` is admitted or not. -/
theorem rice_ml_second (s : List ℝ) (hs : ∀ x ∈ s, 0 < x) (p : ℝ × ℝ)
    (hp : Best (fun p : ℝ × ℝ => 0 < p.1 ∧ 0 < p.2) (fun p => ricePdf p.1 p.2) s p ∨
      Best (fun p : ℝ × ℝ => 0 ≤ p.1 ∧ 0 < p.2) (fun p => ricePdf p.1 p.2) s p) :
    (s.map fun x => x ^ 2).sum = s.length * (p.1 ^ 2 + 2 * p.2 ^ 2) := by
  have hg : 0 ≤ p.1 ∧ 0 < p.2 := by
    rcases hp with h | h
    · exact ⟨h.1.1.le, h.1.2⟩
    · exact h.1
  refine (rice_max_eq s (p := (p.1, p.2 ^ 2)) hg.1 (pow_pos hg.2 2) ?_).1
  rintro ⟨v, t⟩ hv ht
  simp only at hv ht
  have h1 : lik (ricePdf v (√t)) s ≤ lik (ricePdf p.1 p.2) s := by
    rcases hp with h | h
    · exact h.2 (v, √t) ⟨by rcases hv with hv | hv; exacts [hv, hv ▸ h.1.1], Real.sqrt_pos.2 ht⟩
    · exact h.2 (v, √t) ⟨by rcases hv with hv | hv; exacts [hv.le, hv ▸ h.1.1], Real.sqrt_pos.2 ht⟩
  rw [rice_le_iff s hs _ _ (Real.sqrt_pos.2 ht) hg.2, Real.sq_sqrt ht.le] at h1
  exact h1

/-- C143: if the mean fourth power is less than twice the squared mean square, the most likely Rice has a positive `nu`. -/
theorem rice_ml_positive (s : List ℝ) (hs : ∀ x ∈ s, 0 < x) (hne : ∃ x ∈ s, ∃ y ∈ s, x ≠ y)
    (h4 : (s.length : ℝ) * (s.map fun x => x ^ 4).sum < 2 * (s.map fun x => x ^ 2).sum ^ 2) :
    ∃ p, Best (fun p : ℝ × ℝ => 0 < p.1 ∧ 0 < p.2) (fun p => ricePdf p.1 p.2) s p := by
  obtain ⟨p, hp⟩ := rice_ml_exists s hs hne
  have hsec := rice_ml_second s hs p (Or.inr hp)
  rcases hp.1.1.lt_or_eq with h | h
  · exact ⟨p, ⟨h, hp.1.2⟩, fun q hq => hp.2 q ⟨hq.1.le, hq.2⟩⟩
  · rw [← h] at hsec
    obtain ⟨x, hx, -⟩ := hne
    obtain ⟨q, q1, q2, hlt⟩ := rice_improve s (List.ne_nil_of_mem hx) h4 (pow_pos hp.1.2 2) (by rw [hsec]; ring)
    have h1 := hp.2 (q.1, √q.2) ⟨q1.le, Real.sqrt_pos.2 q2⟩
    simp only at h1
    rw [rice_le_iff s hs _ _ (Real.sqrt_pos.2 q2) hp.1.2, Real.sq_sqrt q2.le, ← h] at h1
    exact absurd h1 (not_le.2 hlt)

/-- C143: a constant sample can be made as likely as one likes. -/
theorem rice_ml_constant (s : List ℝ) (hs : s ≠ []) (c : ℝ) (hc0 : 0 < c) (hc : ∀ x ∈ s, x = c) (M : ℝ) :
    ∃ nu sigma, (0 < nu ∧ 0 < sigma) ∧ M < lik (ricePdf nu sigma) s := by
  have hM := abs_nonneg M
  have hpi := Real.pi_pos
  obtain ⟨K, hK⟩ : ∃ K, K = max c ((|M| + 2) * Real.pi * Real.exp (1 / 2)) := ⟨_, rfl⟩
  -- `nu = c` and `c / sigma` large
  obtain ⟨w, hw⟩ : ∃ w, w = 1 + c * ((|M| + 2) * Real.pi * Real.exp (1 / 2)) := ⟨_, rfl⟩
  have hw1 : 1 ≤ w := by rw [hw]; have : 0 ≤ c * ((|M| + 2) * Real.pi * Real.exp (1 / 2)) := by positivity
                         linarith
  have hw0 : 0 < w := by linarith
  refine ⟨c, c / w, ⟨hc0, by positivity⟩, ?_⟩
  have hval : |M| + 2 ≤ ricePdf c (c / w) c := by
    unfold ricePdf
    rw [if_pos hc0]
    have e1 : c * c / (c / w) ^ 2 = w ^ 2 := by field_simp
    have e2 : -(c ^ 2 + c ^ 2) / (2 * (c / w) ^ 2) = -w ^ 2 := by field_simp; ring
    rw [e1, e2]
    have h1 := rice_I0_large (z := w ^ 2) (by nlinarith)
    rw [Real.sqrt_sq hw0.le] at h1
    have h2 : c / (c / w) ^ 2 * Real.exp (-w ^ 2) * (Real.exp (w ^ 2 - 1 / 2) / (Real.pi * w)) = w / (c * Real.pi * Real.exp (1 / 2)) := by
      have e3 : Real.exp (-w ^ 2) * Real.exp (w ^ 2 - 1 / 2) = (Real.exp (1 / 2))⁻¹ := by
        rw [← Real.exp_add, ← Real.exp_neg]
        congr 1
        ring
      calc _ = c / (c / w) ^ 2 / (Real.pi * w) * (Real.exp (-w ^ 2) * Real.exp (w ^ 2 - 1 / 2)) := by ring
        _ = _ := by rw [e3]; field_simp
    have h3 : w / (c * Real.pi * Real.exp (1 / 2)) ≤ c / (c / w) ^ 2 * Real.exp (-w ^ 2) * besselI0 (w ^ 2) := by
      rw [← h2]
      exact mul_le_mul_of_nonneg_left h1 (by positivity)
    refine le_trans ?_ h3
    rw [le_div_iff₀ (by positivity), hw]
    linarith
  have : ∀ t : List ℝ, t ≠ [] → (∀ x ∈ t, x = c) → |M| + 2 ≤ lik (ricePdf c (c / w)) t := by
    intro t
    induction t with
    | nil => intro h; exact absurd rfl h
    | cons a t ih =>
      intro _ h
      have e1 : lik (ricePdf c (c / w)) (a :: t) = ricePdf c (c / w) a * lik (ricePdf c (c / w)) t := by simp [lik]
      rw [e1, h a (by simp)]
      by_cases ht : t = []
      · subst ht
        simpa [lik] using hval
      · have := ih ht fun x hx => h x (List.mem_cons_of_mem _ hx)
        nlinarith
  linarith [this s hs hc, le_abs_self M]

/-- C143: whenever a most likely Rice is at least the machine epsilon away from the end of the domain, `mle` leaves the object with a
most likely one, and so with the mean square of the sample. -/
theorem rice_ml_run (k : Kit) (hb : OwnBounds k .rice) (hm : FindsMinimum k.minimize)
    (hlp : ∀ nu sigma, 0 < nu → 0 < sigma → ∀ x, k.logpdf .rice [some nu, some sigma] x = Real.log (ricePdf nu sigma x))
    (s : List ℝ) (hs : ∀ x ∈ s, 0 < x) (o d : Obj) (hx : o.names ∈ exactNames .rice) (h : fitMle k .rice s o = .ok d) (p : ℝ × ℝ)
    (hp : Best (fun p : ℝ × ℝ => 0 < p.1 ∧ 0 < p.2) (fun p => ricePdf p.1 p.2) s p) (hn : eps ≤ p.1 ∧ eps ≤ p.2) :
    ∃ nu sigma, law .rice d = [some nu, some sigma] ∧
      Best (fun p : ℝ × ℝ => 0 < p.1 ∧ 0 < p.2) (fun p => ricePdf p.1 p.2) s (nu, sigma) ∧
      (s.map fun x => x ^ 2).sum = s.length * (nu ^ 2 + 2 * sigma ^ 2) := by
  have he : (0 : ℝ) < eps := by unfold eps; positivity
  have hbx : ∀ x, InBox (k.box .rice o.names) x ↔ ∃ a b, x = [a, b] ∧ eps ≤ a ∧ eps ≤ b := by
    intro x
    have h1 := box_eq (l := [(((eps : ℝ) : EReal), ⊤), (((eps : ℝ) : EReal), ⊤)]) (hb o.names)
    rw [h1, inBox_pair]
    simp only [EReal.coe_le_coe_iff, le_top, and_true]
  obtain ⟨x, hxin, hl, hmin⟩ := run_min_any k .rice (by decide) hm s o d hx h (by
    intro y o1 hn1 hy
    obtain ⟨a, b, rfl, -⟩ := (hbx y).1 hy
    simp only [exactNames, List.mem_cons, List.not_mem_nil, or_false] at hx
    rcases hx with hx | hx <;>
      simp [hn1, hx, Gives, update, law, lawAttrs, riceUpdate, Obj.setAll, Obj.set, Function.update])
  obtain ⟨nu, sigma, rfl, h1, h2⟩ := (hbx x).1 hxin
  have hbest : Best (fun p : ℝ × ℝ => 0 < p.1 ∧ 0 < p.2) (fun p => ricePdf p.1 p.2) s (nu, sigma) := by
    refine ⟨⟨he.trans_le h1, he.trans_le h2⟩, fun q hq => (hp.2 q hq).trans ?_⟩
    have h3 := hmin [p.1, p.2] ((hbx _).2 ⟨_, _, rfl, hn.1, hn.2⟩)
    simp only [List.map_cons, List.map_nil, hlp _ _ hp.1.1 hp.1.2, hlp _ _ (he.trans_le h1) (he.trans_le h2)] at h3
    have p1 : ∀ x ∈ s, 0 < ricePdf p.1 p.2 x := fun x hx => rice_pos _ hp.1.2 (hs x hx)
    have p2 : ∀ x ∈ s, 0 < ricePdf nu sigma x := fun x hx => rice_pos _ (he.trans_le h2) (hs x hx)
    rwa [← log_lik' p1, ← log_lik' p2, Real.log_le_log_iff (lik_pos' p1) (lik_pos' p2)] at h3
  exact ⟨nu, sigma, hl, hbest, rice_ml_second s hs (nu, sigma) (Or.inl hbest)⟩

-- three values
example : ∃ p, Best (fun p : ℝ × ℝ => 0 < p.1 ∧ 0 < p.2) (fun p => ricePdf p.1 p.2) [1, 2, 3] p ∧ p.1 ^ 2 + 2 * p.2 ^ 2 = 14 / 3 := by
  have hin : ∀ x ∈ ([1, 2, 3] : List ℝ), 0 < x := by
    intro x hx
    simp only [List.mem_cons, List.not_mem_nil, or_false] at hx
    rcases hx with rfl | rfl | rfl <;> norm_num
  obtain ⟨p, hp⟩ := rice_ml_positive [1, 2, 3] hin ⟨1, by simp, 2, by simp, by norm_num⟩ (by norm_num)
  have := rice_ml_second _ hin p (Or.inl hp)
  refine ⟨p, hp, ?_⟩
  norm_num at this
  linarith

end Verif.Props
