import Verif.Props.MlTrunc
import Verif.Props.MlRun
import Mathlib.Tactic

/-!
# C142: what `mle` does for TruncatedNormal, SkewNormal and SkewStudentT

For an optimiser that finds the minimum within the bounds and a log-density that is the logarithm of the documented one.
-/

set_option linter.unusedSimpArgs false

namespace Verif.Props
open Verif Verif.Param Verif.NumFit Verif.Refit Verif.Spec Verif.Ml

private theorem eps_pos6 : (0 : ℝ) < eps := by unfold eps; positivity

private theorem inBox_tri (p q r : EReal × EReal) (x : List ℝ) :
    InBox [p, q, r] x ↔ ∃ a b c, x = [a, b, c] ∧ (p.1 ≤ (a : EReal) ∧ (a : EReal) ≤ p.2) ∧
      (q.1 ≤ (b : EReal) ∧ (b : EReal) ≤ q.2) ∧ (r.1 ≤ (c : EReal) ∧ (c : EReal) ≤ r.2) := by
  unfold InBox
  constructor
  · rintro ⟨h, h2⟩
    obtain ⟨a, b, c, rfl⟩ := List.length_eq_three.1 (by simpa using h)
    exact ⟨a, b, c, rfl, h2 0 (by simp) (by simp), h2 1 (by simp) (by simp), h2 2 (by simp) (by simp)⟩
  · rintro ⟨a, b, c, rfl, h1, h2, h3⟩
    refine ⟨rfl, fun i hi hi' => ?_⟩
    have : i < 3 := by simpa using hi
    interval_cases i
    · exact h1
    · exact h2
    · exact h3

private theorem inBox_quad (p q r t : EReal × EReal) (x : List ℝ) :
    InBox [p, q, r, t] x ↔ ∃ a b c d, x = [a, b, c, d] ∧ (p.1 ≤ (a : EReal) ∧ (a : EReal) ≤ p.2) ∧
      (q.1 ≤ (b : EReal) ∧ (b : EReal) ≤ q.2) ∧ (r.1 ≤ (c : EReal) ∧ (c : EReal) ≤ r.2) ∧
      (t.1 ≤ (d : EReal) ∧ (d : EReal) ≤ t.2) := by
  unfold InBox
  constructor
  · rintro ⟨h, h2⟩
    obtain ⟨a, b, c, d, rfl⟩ : ∃ a b c d, x = [a, b, c, d] := by
      match x, h with
      | [a, b, c, d], _ => exact ⟨a, b, c, d, rfl⟩
    exact ⟨a, b, c, d, rfl, h2 0 (by simp) (by simp), h2 1 (by simp) (by simp), h2 2 (by simp) (by simp),
      h2 3 (by simp) (by simp)⟩
  · rintro ⟨a, b, c, d, rfl, h1, h2, h3, h4⟩
    refine ⟨rfl, fun i hi hi' => ?_⟩
    have : i < 4 := by simpa using hi
    interval_cases i
    · exact h1
    · exact h2
    · exact h3
    · exact h4

/-! ## TruncatedNormal -/

private theorem trunc_run (k : Kit) (hb : OwnBounds k (.simple .truncatedNormal)) (hm : FindsMinimum k.minimize)
    (s : List ℝ) (o d' : Obj) (hx : o.names = ["mu", "sigma", "lower", "upper"])
    (h : fitMle k (.simple .truncatedNormal) s o = .ok d') :
    ∃ m σ l u : ℝ, eps ≤ σ ∧ law (.simple .truncatedNormal) d' = [some m, some σ, some l, some u] ∧
      ∀ m' σ' l' u' : ℝ, eps ≤ σ' → (s.map fun x => k.logpdf (.simple .truncatedNormal) [some m', some σ', some l', some u'] x).sum ≤
        (s.map fun x => k.logpdf (.simple .truncatedNormal) [some m, some σ, some l, some u] x).sum := by
  have hbx : ∀ x, InBox (k.box (.simple .truncatedNormal) o.names) x ↔ ∃ a b c d, x = [a, b, c, d] ∧ eps ≤ b := by
    intro x
    have h1 := box_eq (l := [(⊥, ⊤), (((eps : ℝ) : EReal), ⊤), (⊥, ⊤), (⊥, ⊤)]) (hb o.names)
    rw [h1, inBox_quad]
    simp only [EReal.coe_le_coe_iff, le_top, bot_le, and_true, true_and]
  obtain ⟨x, hxin, hl, hmin⟩ := run_min_any k (.simple .truncatedNormal) (by decide) hm s o d'
    (by simp [exactNames, simpleFam, hx]) h (by
    intro y o1 hn1 hy
    obtain ⟨a, b, c, d, rfl, -⟩ := (hbx y).1 hy
    simp [Gives, update, law, lawAttrs, simpleUpdate, simpleFam, Obj.setAll, Obj.set, Function.update])
  obtain ⟨m, σ, l, u, rfl, hσ⟩ := (hbx x).1 hxin
  exact ⟨m, σ, l, u, hσ, hl, fun m' σ' l' u' h' => hmin [m', σ', l', u'] ((hbx _).2 ⟨_, _, _, _, rfl, h'⟩)⟩

section Trunc
variable (k : Kit) (hb : OwnBounds k (.simple .truncatedNormal)) (hm : FindsMinimum k.minimize)
  (hlp : ∀ m σ l u : ℝ, 0 < σ → ∀ x, l ≤ x → x ≤ u →
    k.logpdf (.simple .truncatedNormal) [some m, some σ, some l, some u] x = Real.log (truncNormalPdf m σ l u x))
  (s : List ℝ) (c d : ℝ) (hcd : c < d) (hin : ∀ x ∈ s, c ≤ x ∧ x ≤ d) (hc : c ∈ s) (hd : d ∈ s)
  (o d' : Obj) (hx : o.names = ["mu", "sigma", "lower", "upper"]) (h : fitMle k (.simple .truncatedNormal) s o = .ok d')
include hb hm hlp hcd hin hc hd hx h

private theorem trunc_min : ∃ m σ l u : ℝ, eps ≤ σ ∧ law (.simple .truncatedNormal) d' = [some m, some σ, some l, some u] ∧
    ((∀ x ∈ s, l ≤ x ∧ x ≤ u) → ∀ m' σ' : ℝ, eps ≤ σ' → lik (truncNormalPdf m' σ' c d) s ≤ lik (truncNormalPdf m σ l u) s) := by
  obtain ⟨m, σ, l, u, hσ, hl, hmin⟩ := trunc_run k hb hm s o d' hx h
  refine ⟨m, σ, l, u, hσ, hl, fun henc m' σ' hσ' => ?_⟩
  have he := eps_pos6
  have h1 := hmin m' σ' c d hσ'
  rw [List.map_congr_left fun x hx => hlp m' σ' c d (he.trans_le hσ') x (hin x hx).1 (hin x hx).2,
    List.map_congr_left fun x hx => hlp m σ l u (he.trans_le hσ) x (henc x hx).1 (henc x hx).2] at h1
  have p1 : ∀ x ∈ s, 0 < truncNormalPdf m' σ' c d x := fun x hx => truncNormal_pos hcd (he.trans_le hσ') m' (hin x hx)
  have p2 : ∀ x ∈ s, 0 < truncNormalPdf m σ l u x := fun x hx =>
    truncNormal_pos (by linarith [(henc c hc).1, (henc d hd).2]) (he.trans_le hσ) m (henc x hx)
  rwa [← log_lik' p1, ← log_lik' p2, Real.log_le_log_iff (lik_pos' p1) (lik_pos' p2)] at h1

/-- C142: if there is a most likely TruncatedNormal whose `sigma` is at least the machine epsilon, `mle` leaves the object with its
parameters, unless it leaves it with bounds that exclude a value of the sample. -/
theorem truncNormal_ml_run (p : ℝ × ℝ × ℝ × ℝ)
    (hp : Best (fun p : ℝ × ℝ × ℝ × ℝ => 0 < p.2.1 ∧ p.2.2.1 < p.2.2.2)
      (fun p => truncNormalPdf p.1 p.2.1 (p.2.2.1 : ℝ) (p.2.2.2 : ℝ)) s p) (hσ : eps ≤ p.2.1) :
    ∃ m σ l u : ℝ, law (.simple .truncatedNormal) d' = [some m, some σ, some l, some u] ∧
      ((∀ x ∈ s, l ≤ x ∧ x ≤ u) → (m, σ, l, u) = p) := by
  obtain ⟨m, σ, l, u, hσ', hl, hmin⟩ := trunc_min k hb hm hlp s c d hcd hin hc hd o d' hx h
  refine ⟨m, σ, l, u, hl, fun henc => ?_⟩
  have hbd := truncNormal_ml_bounds s c d hcd hin hc hd p hp
  have h1 := hmin henc p.1 p.2.1 hσ
  refine truncNormal_ml_unique s c d hcd hin hc hd _ p ⟨⟨eps_pos6.trans_le hσ', ?_⟩, fun q hq => (hp.2 q hq).trans ?_⟩ hp
  · have h2 := (henc c hc).1
    have h3 := (henc d hd).2
    simp only
    linarith
  · change lik (truncNormalPdf p.1 p.2.1 (p.2.2.1 : ℝ) (p.2.2.2 : ℝ)) s ≤ _
    rw [hbd]
    exact h1

/-- C142: if there is none, `mle` can only leave the object with bounds that exclude a value of the sample. -/
theorem truncNormal_ml_fails
    (hno : ¬∃ p : ℝ × ℝ × ℝ × ℝ, Best (fun p : ℝ × ℝ × ℝ × ℝ => 0 < p.2.1 ∧ p.2.2.1 < p.2.2.2)
      (fun p => truncNormalPdf p.1 p.2.1 (p.2.2.1 : ℝ) (p.2.2.2 : ℝ)) s p) :
    ∃ m σ l u : ℝ, law (.simple .truncatedNormal) d' = [some m, some σ, some l, some u] ∧ ∃ x ∈ s, x < l ∨ u < x := by
  obtain ⟨m, σ, l, u, hσ', hl, hmin⟩ := trunc_min k hb hm hlp s c d hcd hin hc hd o d' hx h
  refine ⟨m, σ, l, u, hl, ?_⟩
  by_contra hcon
  push Not at hcon
  obtain ⟨m', σ', h1, -, h2⟩ := truncNormal_ml_better s c d hcd hin hc hd hno m σ l u (eps_pos6.trans_le hσ') eps
  exact absurd (hmin hcon m' σ' h1) (not_le.2 h2)

end Trunc

/-! ## SkewNormal -/

/-- C142: for two different values a search that only ever returns minima cannot return a SkewNormal. -/
theorem skewNormal_ml_fails (k : Kit) (hb : OwnBounds k .skewNormal) (hm : FindsMinimum k.minimize)
    (hlp : ∀ m σ al, 0 < σ → ∀ x, k.logpdf .skewNormal [some m, some σ, some al] x = Real.log (skewNormalPdf al m σ x))
    (c d : ℝ) (hcd : c + 2 * eps ≤ d) (o d' : Obj) (hx : o.names = ["mu", "sigma", "alpha"]) :
    fitMle k .skewNormal [c, d] o ≠ .ok d' := by
  intro h
  have he := eps_pos6
  have hbx : ∀ x, InBox (k.box .skewNormal o.names) x ↔ ∃ a b c, x = [a, b, c] ∧ eps ≤ b := by
    intro x
    have h1 := box_eq (l := [(⊥, ⊤), (((eps : ℝ) : EReal), ⊤), (⊥, ⊤)]) (hb o.names)
    rw [h1, inBox_tri]
    simp only [EReal.coe_le_coe_iff, le_top, bot_le, and_true, true_and]
  obtain ⟨x, hxin, hl, hmin⟩ := run_min_any k .skewNormal (by decide) hm [c, d] o d' (by simp [exactNames, hx]) h (by
    intro y o1 hn1 hy
    obtain ⟨a, b, c, rfl, -⟩ := (hbx y).1 hy
    simp [hn1, hx, Gives, update, law, lawAttrs, skewNormalUpdate, Obj.setAll, Obj.set, Function.update])
  obtain ⟨m, σ, al, rfl, hσ⟩ := (hbx x).1 hxin
  obtain ⟨al', m', σ', hσ', hbig, hlt⟩ := skewNormal_ml_better c d (by linarith) al m σ (he.trans_le hσ)
  have h1 := hmin [m', σ', al'] ((hbx _).2 ⟨_, _, _, rfl, by rcases hbig with h | h <;> linarith⟩)
  have e : ∀ al m σ, 0 < σ → ([c, d].map fun t => k.logpdf .skewNormal ([m, σ, al].map some) t).sum =
      Real.log (lik (skewNormalPdf al m σ) [c, d]) := by
    intro al m σ hσ
    have p : ∀ x ∈ [c, d], 0 < skewNormalPdf al m σ x := fun x _ => skewNormal_pos hσ al m x
    rw [log_lik' p]
    simp only [List.map_cons, List.map_nil, hlp _ _ _ hσ]
  rw [e _ _ _ hσ', e _ _ _ (he.trans_le hσ)] at h1
  exact absurd h1 (not_le.2 (Real.log_lt_log (lik_pos' fun x _ => skewNormal_pos (he.trans_le hσ) al m x) hlt))

open Classical in
/-- a toolbox whose log-density outside the bounds is finite and never pays for excluding only one of `0` and `1` -/
private noncomputable def truncKit (C : ℝ) : Kit where
  est _ _ := .error .valueError
  mom _ _ _ _ _ := .ok [0, 1, 0, 1]
  meanStd _ _ := (0, 0)
  start _ := []
  box f names := (Support.boxOf none names f).map fun p => (p.1, p.2.getD ⊤)
  logpdf f ps x := match f, ps with
    | .simple .truncatedNormal, [some m, some σ, some l, some u] =>
      if l ≤ x ∧ x ≤ u then Real.log (truncNormalPdf m σ l u x)
      else C - |Real.log (truncNormalPdf m σ l u 0)| - |Real.log (truncNormalPdf m σ l u 1)|
    | .skewNormal, [some m, some σ, some al] => Real.log (skewNormalPdf al m σ x)
    | _, _ => 0
  leastSquares _ _ := .error .valueError
  minimize := exactMin

-- a run that ends with bounds excluding the sample
example : ∃ (C : ℝ) (d' : Obj), fitMle (truncKit C) (.simple .truncatedNormal) [0, 1]
    { names := ["mu", "sigma", "lower", "upper"], attr := fun _ => none, params := none, frozen := false } = .ok d' ∧
    ∃ m σ l u : ℝ, law (.simple .truncatedNormal) d' = [some m, some σ, some l, some u] ∧ ∃ x ∈ ([0, 1] : List ℝ), x < l ∨ u < x := by
  set o : Obj := { names := ["mu", "sigma", "lower", "upper"], attr := fun _ => none, params := none, frozen := false } with ho
  have hin : ∀ x ∈ ([0, 1] : List ℝ), (0 : ℝ) ≤ x ∧ x ≤ 1 := by simp
  obtain ⟨M, hM⟩ := truncNormal_ml_limited [0, 1] 0 1 (by norm_num) hin (by simp) (by simp)
  obtain ⟨C, hC⟩ : ∃ C, C = |Real.log M| := ⟨_, rfl⟩
  have hC0 : 0 ≤ C := hC ▸ abs_nonneg _
  have hb : OwnBounds (truncKit C) (.simple .truncatedNormal) := by
    intro names
    simp [truncKit, Support.boxOf, Support.pos, Support.free]
  have he := eps_pos6
  have hbx : ∀ x, InBox ((truncKit C).box (.simple .truncatedNormal) o.names) x ↔ ∃ a b c d, x = [a, b, c, d] ∧ eps ≤ b := by
    intro x
    have h1 := box_eq (l := [(⊥, ⊤), (((eps : ℝ) : EReal), ⊤), (⊥, ⊤), (⊥, ⊤)]) (hb o.names)
    rw [h1, inBox_quad]
    simp only [EReal.coe_le_coe_iff, le_top, bot_le, and_true, true_and]
  have hval : ∀ (o1 : Obj) (m σ l u : ℝ), Refit.negll (truncKit C) (.simple .truncatedNormal) o1 [0, 1] [m, σ, l, u] =
      .ok (-((truncKit C).logpdf (.simple .truncatedNormal) [some m, some σ, some l, some u] 0 +
        (truncKit C).logpdf (.simple .truncatedNormal) [some m, some σ, some l, some u] 1)) := by
    intro o1 m σ l u
    simp [Refit.negll, update, law, lawAttrs, simpleUpdate, simpleFam, Obj.setAll, Obj.set, Function.update, Except.ok_bind',
      Except.pure_eq]
  have hle : ∀ m σ l u : ℝ, 0 < σ → (truncKit C).logpdf (.simple .truncatedNormal) [some m, some σ, some l, some u] 0 +
        (truncKit C).logpdf (.simple .truncatedNormal) [some m, some σ, some l, some u] 1 ≤ 2 * C := by
    intro m σ l u hσ
    simp only [truncKit]
    have a0 := abs_nonneg (Real.log (truncNormalPdf m σ l u 0))
    have a1 := abs_nonneg (Real.log (truncNormalPdf m σ l u 1))
    have b0 := le_abs_self (Real.log (truncNormalPdf m σ l u 0))
    have b1 := le_abs_self (Real.log (truncNormalPdf m σ l u 1))
    split_ifs with h0 h1 h1
    · have hlu : l < u := by linarith [h0.1, h1.2]
      have p0 := truncNormal_pos hlu hσ m h0
      have p1 := truncNormal_pos hlu hσ m h1
      rw [← Real.log_mul p0.ne' p1.ne']
      have h2 := hM m σ l u hσ
      simp only [lik, List.map_cons, List.map_nil, List.prod_cons, List.prod_nil, mul_one] at h2
      have h3 := Real.log_le_log (mul_pos p0 p1) h2
      have h4 := le_abs_self (Real.log M)
      linarith
    · linarith
    · linarith
    · linarith
  have hfar : ∀ x : ℝ, x < 10 → truncNormalPdf 0 1 ((10 : ℝ) : EReal) ((11 : ℝ) : EReal) x = 0 := by
    intro x hx
    unfold truncNormalPdf
    rw [if_neg]
    simp only [inBounds, Set.mem_setOf_eq, EReal.coe_le_coe_iff, not_and]
    intro h
    linarith
  have hat : (truncKit C).logpdf (.simple .truncatedNormal) [some 0, some 1, some 10, some 11] 0 +
        (truncKit C).logpdf (.simple .truncatedNormal) [some 0, some 1, some 10, some 11] 1 = 2 * C := by
    simp only [truncKit]
    rw [hfar 0 (by norm_num), hfar 1 (by norm_num), if_neg (by norm_num), if_neg (by norm_num)]
    simp
    ring
  have hex : ∃ d', fitMle (truncKit C) (.simple .truncatedNormal) [0, 1] o = .ok d' := by
    unfold fitMle
    simp only [way, Refit.optimizeMl]
    have hmom : (truncKit C).mom (.simple .truncatedNormal) (some (List.foldr min (List.headD ([0, 1] : List ℝ) 0) [0, 1],
      List.foldr max (List.headD ([0, 1] : List ℝ) 0) [0, 1])) none (mean [0, 1]) (std [0, 1]) = .ok [0, 1, 0, 1] := rfl
    rw [hmom]
    simp only [Except.ok_bind']
    obtain ⟨o1, h1⟩ : ∃ o1, update (.simple .truncatedNormal) [0, 1, 0, 1] o = .ok o1 := by simp [update, simpleUpdate, simpleFam]
    have hn1 := update_names _ _ _ _ h1
    rw [h1]
    simp only [Except.ok_bind']
    rw [hn1]
    have h5 : ∃ x, InBox ((truncKit C).box (.simple .truncatedNormal) o.names) x ∧
        ∀ y, InBox ((truncKit C).box (.simple .truncatedNormal) o.names) y → ∀ v w,
        Refit.negll (truncKit C) (.simple .truncatedNormal) o1 [0, 1] x = .ok v →
        Refit.negll (truncKit C) (.simple .truncatedNormal) o1 [0, 1] y = .ok w → v ≤ w := by
      refine ⟨[0, 1, 10, 11], (hbx _).2 ⟨_, _, _, _, rfl, by unfold eps; norm_num⟩, ?_⟩
      intro y hy v w hv hw
      obtain ⟨m, σ, l, u, rfl, hσ⟩ := (hbx _).1 hy
      rw [hval, Except.ok.injEq] at hv hw
      rw [← hv, ← hw, hat]
      exact neg_le_neg (hle m σ l u (he.trans_le hσ))
    have h6 : (truncKit C).minimize (Refit.negll (truncKit C) (.simple .truncatedNormal) o1 [0, 1]) (o1.params.getD [])
        ((truncKit C).box (.simple .truncatedNormal) o.names) = .ok h5.choose := dif_pos h5
    rw [h6]
    simp only [Except.ok_bind']
    obtain ⟨m, σ, l, u, hxe, -⟩ := (hbx _).1 h5.choose_spec.1
    rw [hxe]
    simp [update, simpleUpdate, simpleFam]
  obtain ⟨d', hd'⟩ := hex
  refine ⟨C, d', hd', truncNormal_ml_fails (truncKit C) hb exactMin_finds ?_ [0, 1] 0 1 (by norm_num) hin (by simp) (by simp) o d'
    rfl hd' (truncNormal_ml_two _ 0 1 (by norm_num) (by simp) (by simp) (by simp))⟩
  intro m σ l u _ x h1 h2
  simp only [truncKit]
  rw [if_pos ⟨h1, h2⟩]

example (o d : Obj) (ho : o.names = ["mu", "sigma", "alpha"]) : fitMle (truncKit 0) .skewNormal [-1, 5] o ≠ .ok d :=
  skewNormal_ml_fails (truncKit 0) (by
      intro names
      simp [truncKit, Support.boxOf, Support.pos, Support.free]) exactMin_finds (fun _ _ _ _ _ => rfl) _ _
    (by unfold eps; norm_num) o d ho

end Verif.Props
