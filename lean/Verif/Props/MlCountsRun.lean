import Verif.Props.MlCounts
import Verif.Props.MlRun
import Mathlib.Tactic

/-!
# C140: what `mle` does for NegativeBinomial, ZeroInflatedPoisson and AsymmetricLaplace

For an optimiser that finds the minimum within the bounds and a log-density that is the logarithm of the documented one.
-/

set_option linter.unusedSimpArgs false

namespace Verif.Props
open Verif Verif.Param Verif.NumFit Verif.Refit Verif.Spec Verif.Ml

private theorem eps_pos4 : (0 : ℝ) < eps := by unfold eps; positivity

/-- the sample as the numbers `mle` is given -/
def asNumbers (s : List ℕ) : List ℝ := s.map fun n : ℕ => (n : ℝ)

private theorem box_nb (k : Kit) (hb : OwnBounds k .negativeBinomial) (names : List String) (x : List ℝ) :
    InBox (k.box .negativeBinomial names) x ↔ ∃ a b, x = [a, b] ∧ eps ≤ a ∧ eps ≤ b := by
  have h1 := box_eq (l := [(((eps : ℝ) : EReal), ⊤), (((eps : ℝ) : EReal), ⊤)]) (hb names)
  rw [h1, inBox_pair]
  simp [EReal.coe_le_coe_iff]

private theorem box_zip (k : Kit) (hb : OwnBounds k (.simple .ziPoisson)) (names : List String) (x : List ℝ) :
    InBox (k.box (.simple .ziPoisson) names) x ↔ ∃ a b, x = [a, b] ∧ (eps ≤ a ∧ a ≤ 1 - eps) ∧ eps ≤ b := by
  have h1 := box_eq (l := [(((eps : ℝ) : EReal), ((1 - eps : ℝ) : EReal)), (((eps : ℝ) : EReal), ⊤)]) (hb names)
  rw [h1, inBox_pair]
  have h2 : ∀ a : ℝ, ((a : EReal) ≤ ((1 - eps : ℝ) : EReal)) ↔ a ≤ 1 - eps := fun a => EReal.coe_le_coe_iff
  simp only [h2, EReal.coe_le_coe_iff, le_top, and_true]

private theorem sum_counts (s : List ℕ) (g : ℝ → ℝ) : ((asNumbers s).map g).sum = (s.map fun n : ℕ => g n).sum := by
  unfold asNumbers
  rw [List.map_map]
  rfl

/-- what a run for NegativeBinomial amounts to -/
private theorem nb_min (k : Kit) (hb : OwnBounds k .negativeBinomial) (hm : FindsMinimum k.minimize)
    (hlp : ∀ m a, 0 < m → 0 < a → ∀ n : ℕ, k.logpdf .negativeBinomial [some m, some a] n = Real.log (negBinomialPmf m a n))
    (s : List ℕ) (o d : Obj) (hx : o.names ∈ exactNames .negativeBinomial)
    (h : fitMle k .negativeBinomial (asNumbers s) o = .ok d) :
    ∃ m a : ℝ, (eps ≤ m ∧ eps ≤ a) ∧ law .negativeBinomial d = [some m, some a] ∧ ∀ m' a', eps ≤ m' → eps ≤ a' →
      lik (negBinomialPmf m' a') s ≤ lik (negBinomialPmf m a) s := by
  have hbx := box_nb k hb o.names
  obtain ⟨x, hxin, hl, hmin⟩ := run_min k .negativeBinomial (Or.inr ⟨rfl, by simp⟩) hm (asNumbers s) o d hx h (by
    intro y o1 hn1 hy
    obtain ⟨a, b, rfl, -⟩ := (hbx y).1 hy
    simp only [exactNames, List.mem_cons, List.not_mem_nil, or_false] at hx
    rcases hx with h2 | h2 <;>
    simp [Gives, update, law, lawAttrs, hn1, h2, nbUpdate, Obj.setAll, Obj.set, Function.update])
  obtain ⟨m, a, rfl, hma⟩ := (hbx x).1 hxin
  refine ⟨m, a, hma, hl, fun m' a' hm' ha' => ?_⟩
  have he := eps_pos4
  have h1 := hmin [m', a'] ((hbx _).2 ⟨_, _, rfl, hm', ha'⟩)
  have p1 : 0 < m := he.trans_le hma.1
  have p2 : 0 < a := he.trans_le hma.2
  have p3 : 0 < m' := he.trans_le hm'
  have p4 : 0 < a' := he.trans_le ha'
  rw [sum_counts, sum_counts] at h1
  simp only [List.map_cons, List.map_nil, hlp _ _ p1 p2, hlp _ _ p3 p4] at h1
  rw [← log_lik' fun x _ => negBin_pos p3 p4 x, ← log_lik' fun x _ => negBin_pos p1 p2 x] at h1
  exact (Real.log_le_log_iff (lik_pos' fun x _ => negBin_pos p3 p4 x) (lik_pos' fun x _ => negBin_pos p1 p2 x)).1 h1

/-- C140: if the variance of the sample exceeds its mean (and the sample is not so large that parameters below the machine epsilon
come into play), `mle` leaves the object with most likely parameters, in particular with the mean of the sample. -/
theorem negBinomial_ml_run (k : Kit) (hb : OwnBounds k .negativeBinomial) (hm : FindsMinimum k.minimize)
    (hlp : ∀ m a, 0 < m → 0 < a → ∀ n : ℕ, k.logpdf .negativeBinomial [some m, some a] n = Real.log (negBinomialPmf m a n))
    (s : List ℕ) (hs : s ≠ []) (o d : Obj) (hx : o.names ∈ exactNames .negativeBinomial)
    (h : fitMle k .negativeBinomial (asNumbers s) o = .ok d) (hv : countMean s < countVar s)
    (hbig : eps ≤ countMean s / (4 * (s.map fun x : ℕ => (x : ℝ)).sum ^ 2 + 1)) :
    ∃ a, law .negativeBinomial d = [some (countMean s), some a] ∧
      Best (fun p : ℝ × ℝ => 0 < p.1 ∧ 0 < p.2) (fun p => negBinomialPmf p.1 p.2) s (countMean s, a) := by
  obtain ⟨p, hp⟩ := (negBinomial_ml_iff s hs).2 hv
  have he := eps_pos4
  have h2 : eps ≤ p.2 := hbig.trans (negBinomial_ml_alpha s hs p hp).le
  have h1 : eps ≤ p.1 := by
    rw [negBinomial_ml_mean s hs p hp]
    refine hbig.trans (div_le_self ?_ ?_)
    · rw [← negBinomial_ml_mean s hs p hp]
      exact hp.1.1.le
    · have := sq_nonneg (s.map fun x : ℕ => (x : ℝ)).sum
      linarith
  obtain ⟨m, a, hma, hl, hmin⟩ := nb_min k hb hm hlp s o d hx h
  have hbest : Best (fun p : ℝ × ℝ => 0 < p.1 ∧ 0 < p.2) (fun p => negBinomialPmf p.1 p.2) s (m, a) :=
    ⟨⟨he.trans_le hma.1, he.trans_le hma.2⟩, fun q hq => (hp.2 q hq).trans (hmin _ _ h1 h2)⟩
  have hmean := negBinomial_ml_mean s hs _ hbest
  simp only at hmean
  rw [hmean] at hl hbest
  exact ⟨a, hl, hbest⟩

/-- C140: if the variance of the sample does not exceed its mean, a search that only ever returns minima cannot return: larger
values of `alpha` are always better. -/
theorem negBinomial_ml_fails (k : Kit) (hb : OwnBounds k .negativeBinomial) (hm : FindsMinimum k.minimize)
    (hlp : ∀ m a, 0 < m → 0 < a → ∀ n : ℕ, k.logpdf .negativeBinomial [some m, some a] n = Real.log (negBinomialPmf m a n))
    (s : List ℕ) (hs : s ≠ []) (o d : Obj) (hx : o.names ∈ exactNames .negativeBinomial) (hmean : eps ≤ countMean s)
    (hv : countVar s ≤ countMean s) : fitMle k .negativeBinomial (asNumbers s) o ≠ .ok d := by
  intro h
  obtain ⟨m, a, hma, -, hmin⟩ := nb_min k hb hm hlp s o d hx h
  have he := eps_pos4
  have p1 : 0 < m := he.trans_le hma.1
  have p2 : 0 < a := he.trans_le hma.2
  -- an object with these parameters would be most likely
  have hno := mt (negBinomial_ml_iff s hs).1 (not_lt.2 hv)
  apply hno
  refine ⟨(m, a), ⟨p1, p2⟩, ?_⟩
  rintro ⟨μ, b⟩ ⟨hμ, hb'⟩
  simp only at hμ hb' ⊢
  have hpos : 0 < countMean s := he.trans_le hmean
  have he1 : eps ≤ b + 1 := by
    have : eps ≤ 1 := by unfold eps; norm_num
    linarith
  exact (negBinomial_larger s hs hv hpos μ b hμ hb').le.trans (hmin _ _ hmean he1)

/-- C140: if the most likely ZeroInflatedPoisson is at least the machine epsilon away from the end of the domain, `mle` leaves the
object with exactly its parameters. -/
theorem ziPoisson_ml_run (k : Kit) (hb : OwnBounds k (.simple .ziPoisson)) (hm : FindsMinimum k.minimize)
    (hlp : ∀ psi mu, 0 < psi → psi < 1 → 0 < mu → ∀ n : ℕ,
      k.logpdf (.simple .ziPoisson) [some psi, some mu] n = Real.log (zeroInflatedPmf psi (poissonPmf mu) n))
    (s : List ℕ) (hs : s ≠ []) (o d : Obj) (hx : o.names = ["psi", "mu"])
    (h : fitMle k (.simple .ziPoisson) (asNumbers s) o = .ok d) (p : ℝ × ℝ)
    (hp : Best (fun p : ℝ × ℝ => (0 < p.1 ∧ p.1 < 1) ∧ 0 < p.2) (fun p => zeroInflatedPmf p.1 (poissonPmf p.2)) s p)
    (h1 : eps ≤ p.1 ∧ p.1 ≤ 1 - eps) (h2 : eps ≤ p.2) : law (.simple .ziPoisson) d = [some p.1, some p.2] := by
  have hbx := box_zip k hb o.names
  obtain ⟨x, hxin, hl, hmin⟩ := run_min k (.simple .ziPoisson) (Or.inr ⟨rfl, by simp⟩) hm (asNumbers s) o d
    (by simp [exactNames, simpleFam, hx]) h (by
    intro y o1 hn1 hy
    obtain ⟨a, b, rfl, -⟩ := (hbx y).1 hy
    simp [Gives, update, law, lawAttrs, simpleUpdate, simpleFam, Obj.setAll, Obj.set, Function.update])
  obtain ⟨psi, mu, rfl, hpsi, hmu⟩ := (hbx x).1 hxin
  have he := eps_pos4
  have h3 := hmin [p.1, p.2] ((hbx _).2 ⟨_, _, rfl, h1, h2⟩)
  have p1 : 0 < psi := he.trans_le hpsi.1
  have p2 : psi < 1 := by linarith [hpsi.2]
  have p3 : 0 < mu := he.trans_le hmu
  obtain ⟨⟨q1, q2⟩, q3⟩ := hp.1
  rw [sum_counts, sum_counts] at h3
  simp only [List.map_cons, List.map_nil, hlp _ _ p1 p2 p3, hlp _ _ q1 q2 q3] at h3
  rw [← log_lik' fun x _ => zip_pos q1 q2 q3 x, ← log_lik' fun x _ => zip_pos p1 p2 p3 x,
    Real.log_le_log_iff (lik_pos' fun x _ => zip_pos q1 q2 q3 x) (lik_pos' fun x _ => zip_pos p1 p2 p3 x)] at h3
  have he := ((ziPoisson_ml_iff s hs).2 p hp).2 (psi, mu) ⟨⟨⟨p1, p2⟩, p3⟩, fun q hq => (hp.2 q hq).trans h3⟩
  rw [hl, ← he]
  rfl

private theorem inBox_three (p q r : EReal × EReal) (x : List ℝ) :
    InBox [p, q, r] x ↔ ∃ a b c, x = [a, b, c] ∧ (p.1 ≤ (a : EReal) ∧ (a : EReal) ≤ p.2) ∧
      (q.1 ≤ (b : EReal) ∧ (b : EReal) ≤ q.2) ∧ (r.1 ≤ (c : EReal) ∧ (c : EReal) ≤ r.2) := by
  unfold InBox
  constructor
  · rintro ⟨h, h2⟩
    obtain ⟨a, b, c, rfl⟩ := List.length_eq_three.1 (by simpa using h)
    exact ⟨a, b, c, rfl, h2 0 (by simp) (by simp), h2 1 (by simp) (by simp), h2 2 (by simp) (by simp)⟩
  · rintro ⟨a, b, c, rfl, h1, h2, h3⟩
    refine ⟨rfl, fun i hi hi' => ?_⟩
    have : i < 3 := by simpa using hi
    interval_cases i
    · exact h1
    · exact h2
    · exact h3

/-- C140: if there is a most likely AsymmetricLaplace at least the machine epsilon away from the end of the domain, `mle` leaves
an object given by `kappa`, `mu`, `b` with most likely parameters (for one given by `q` see C66). -/
theorem asymLaplace_ml_run (k : Kit) (hb : OwnBounds k .asymmetricLaplace) (hm : FindsMinimum k.minimize)
    (hlp : ∀ kappa m b, 0 < kappa → 0 < b → ∀ x,
      k.logpdf .asymmetricLaplace [some kappa, some m, some b] x = Real.log (asymLaplacePdf kappa m b x))
    (s : List ℝ) (o d : Obj) (hx : o.names = ["kappa", "mu", "b"]) (h : fitMle k .asymmetricLaplace s o = .ok d)
    (p : ℝ × ℝ × ℝ)
    (hp : Best (fun p : ℝ × ℝ × ℝ => 0 < p.1 ∧ 0 < p.2.2) (fun p => asymLaplacePdf p.1 p.2.1 p.2.2) s p)
    (h1 : eps ≤ p.1) (h2 : eps ≤ p.2.2) :
    ∃ q : ℝ × ℝ × ℝ, law .asymmetricLaplace d = [some q.1, some q.2.1, some q.2.2] ∧
      Best (fun p : ℝ × ℝ × ℝ => 0 < p.1 ∧ 0 < p.2.2) (fun p => asymLaplacePdf p.1 p.2.1 p.2.2) s q := by
  have hb1 := box_eq (l := [(((eps : ℝ) : EReal), ⊤), (⊥, ⊤), (((eps : ℝ) : EReal), ⊤)]) (by
    have := hb o.names
    rw [this, hx]
    simp [Support.boxOf, Support.pos, Support.free])
  have hbx : ∀ x, InBox (k.box .asymmetricLaplace o.names) x ↔ ∃ a m b, x = [a, m, b] ∧ eps ≤ a ∧ eps ≤ b := by
    intro x
    rw [hb1, inBox_three]
    simp [EReal.coe_le_coe_iff]
  obtain ⟨x, hxin, hl, hmin⟩ := run_min k .asymmetricLaplace (Or.inl rfl) hm s o d (by simp [exactNames, hx]) h (by
    intro y o1 hn1 hy
    obtain ⟨a, m, b, rfl, -⟩ := (hbx y).1 hy
    simp [Gives, update, law, lawAttrs, asymLaplaceUpdate, hn1, hx, Obj.setAll, Obj.set, Function.update])
  obtain ⟨a, m, b, rfl, ha, hb'⟩ := (hbx x).1 hxin
  have he := eps_pos4
  have h3 := hmin [p.1, p.2.1, p.2.2] ((hbx _).2 ⟨_, _, _, rfl, h1, h2⟩)
  have p1 : 0 < a := he.trans_le ha
  have p2 : 0 < b := he.trans_le hb'
  obtain ⟨q1, q2⟩ := hp.1
  simp only [List.map_cons, List.map_nil, hlp _ _ _ p1 p2, hlp _ _ _ q1 q2] at h3
  rw [← log_lik' fun x _ => asym_pos q1 q2 x, ← log_lik' fun x _ => asym_pos p1 p2 x,
    Real.log_le_log_iff (lik_pos' fun x _ => asym_pos q1 q2 x) (lik_pos' fun x _ => asym_pos p1 p2 x)] at h3
  exact ⟨(a, m, b), hl, ⟨p1, p2⟩, fun q hq => (hp.2 q hq).trans h3⟩

/-! ## Examples: AsymmetricLaplace and -1, 0, 0, 1; NegativeBinomial and 1, 2, 3 -/

private noncomputable def exKit : Kit where
  est _ _ := .error .valueError
  mom _ _ _ _ _ := .ok [1, 0, 1]
  meanStd _ _ := (0, 0)
  start _ := [1, 1]
  box f names := (Support.boxOf none names f).map fun p => (p.1, p.2.getD ⊤)
  logpdf f ps x := match f, ps with
    | .asymmetricLaplace, [some a, some m, some b] => Real.log (asymLaplacePdf a m b x)
    | .negativeBinomial, [some m, some a] => Real.log (negBinomialPmf m a ⌊x⌋₊)
    | _, _ => 0
  leastSquares _ _ := .error .valueError
  minimize := exactMin

private theorem ex_best : Best (fun p : ℝ × ℝ × ℝ => 0 < p.1 ∧ 0 < p.2.2) (fun p => asymLaplacePdf p.1 p.2.1 p.2.2)
    ([-1, 0, 0, 1] : List ℝ) (1, 0, 1 / 2) := by
  have hA : ∀ m : ℝ, above [-1, 0, 0, 1] m = max (-1 - m) 0 + (max (0 - m) 0 + (max (0 - m) 0 + max (1 - m) 0)) := by
    intro m; simp [above]
  have hB : ∀ m : ℝ, below [-1, 0, 0, 1] m = max (m - -1) 0 + (max (m - 0) 0 + (max (m - 0) 0 + max (m - 1) 0)) := by
    intro m; simp [below]
  have h4 : √4 = (2 : ℝ) := by
    rw [show (4 : ℝ) = 2 ^ 2 by norm_num, Real.sqrt_sq (by norm_num)]
  have hroot : ∀ m : ℝ, 2 ≤ rootDist [-1, 0, 0, 1] m := by
    intro m
    obtain ⟨c, hc, h⟩ := rootDist_le (s := [-1, 0, 0, 1]) (by simp) m
    refine le_trans ?_ h
    unfold rootDist
    rw [hA, hB]
    simp only [List.mem_cons, List.not_mem_nil, or_false] at hc
    rcases hc with rfl | rfl | rfl | rfl <;> norm_num [h4]
  have hpos : (0 : ℝ) < 1 / 2 := by norm_num
  refine ⟨⟨one_pos, hpos⟩, ?_⟩
  rintro ⟨k, m, b⟩ ⟨hk, hb⟩
  simp only at hk hb ⊢
  rw [← Real.log_le_log_iff (lik_pos' fun x _ => asym_pos hk hb x) (lik_pos' fun x _ => asym_pos one_pos hpos x),
    asym_log _ hk hb, asym_log _ one_pos hpos]
  refine (asym_le (by simp) (by positivity) (by positivity) (by linarith [hroot m])).trans ?_
  have e : asymObj [-1, 0, 0, 1] (1 / 2 / 1) (1 / 2 * 1) 0 = -4 := by
    unfold asymObj
    rw [hA, hB]
    norm_num
  rw [e]
  have h1 : 1 ≤ rootDist [-1, 0, 0, 1] m ^ 2 / 4 := by
    rw [le_div_iff₀ (by norm_num)]
    nlinarith [hroot m]
  have h2 := Real.log_nonneg h1
  norm_num
  linarith

private def exObj : Obj := { names := ["kappa", "mu", "b"], attr := fun _ => none, params := none, frozen := false }

example : ∃ d q, fitMle exKit .asymmetricLaplace [-1, 0, 0, 1] exObj = .ok d ∧
    law .asymmetricLaplace d = [some q.1, some q.2.1, some q.2.2] ∧
    Best (fun p : ℝ × ℝ × ℝ => 0 < p.1 ∧ 0 < p.2.2) (fun p => asymLaplacePdf p.1 p.2.1 p.2.2) ([-1, 0, 0, 1] : List ℝ) q := by
  have hb : OwnBounds exKit .asymmetricLaplace := by
    intro names
    by_cases h : names = ["q", "mu", "b"] <;>
    simp [exKit, Support.boxOf, Support.pos, Support.free, Support.unit, h]
  have he := eps_pos4
  have he1 : eps ≤ 1 / 2 := by unfold eps; norm_num
  have hbx : ∀ x, InBox (exKit.box .asymmetricLaplace ["kappa", "mu", "b"]) x ↔ ∃ a m b, x = [a, m, b] ∧ eps ≤ a ∧ eps ≤ b := by
    intro x
    have hb1 := box_eq (l := [(((eps : ℝ) : EReal), ⊤), (⊥, ⊤), (((eps : ℝ) : EReal), ⊤)]) (by
      have := hb ["kappa", "mu", "b"]
      rw [this]
      simp [Support.boxOf, Support.pos, Support.free])
    rw [hb1, inBox_three]
    simp [EReal.coe_le_coe_iff]
  have hex : ∃ d, fitMle exKit .asymmetricLaplace [-1, 0, 0, 1] exObj = .ok d := by
    set o1 : Obj := asymLaplaceUpdate 1 0 1 exObj with ho1
    have hn1 : o1.names = ["kappa", "mu", "b"] := by
      simp [ho1, exObj, asymLaplaceUpdate, Obj.setAll, Obj.set]
    have hval : ∀ a m b, eps ≤ a → eps ≤ b → Refit.negll exKit .asymmetricLaplace o1 [-1, 0, 0, 1] [a, m, b] =
        .ok (-Real.log (lik (asymLaplacePdf a m b) [-1, 0, 0, 1])) := by
      intro a m b ha hb'
      rw [log_lik' fun x _ => asym_pos (he.trans_le ha) (he.trans_le hb') x]
      simp [Refit.negll, update, law, lawAttrs, asymLaplaceUpdate, hn1, exKit, Obj.setAll, Obj.set, Function.update]
    have h5 : ∃ x, InBox (exKit.box .asymmetricLaplace o1.names) x ∧ ∀ y, InBox (exKit.box .asymmetricLaplace o1.names) y → ∀ v w,
        Refit.negll exKit .asymmetricLaplace o1 [-1, 0, 0, 1] x = .ok v →
        Refit.negll exKit .asymmetricLaplace o1 [-1, 0, 0, 1] y = .ok w → v ≤ w := by
      rw [hn1]
      refine ⟨[1, 0, 1 / 2], (hbx _).2 ⟨1, 0, 1 / 2, rfl, by linarith, he1⟩, ?_⟩
      intro y hy v w hv hw
      obtain ⟨a, m, b, rfl, ha, hb'⟩ := (hbx y).1 hy
      rw [hval _ _ _ (by linarith) he1] at hv
      rw [hval _ _ _ ha hb'] at hw
      simp only [Except.ok.injEq] at hv hw
      rw [← hv, ← hw]
      exact neg_le_neg (Real.log_le_log (lik_pos' fun x _ => asym_pos (he.trans_le ha) (he.trans_le hb') x)
        (ex_best.2 (a, m, b) ⟨he.trans_le ha, he.trans_le hb'⟩))
    have h6 : exKit.minimize (Refit.negll exKit .asymmetricLaplace o1 [-1, 0, 0, 1]) (o1.params.getD [])
        (exKit.box .asymmetricLaplace o1.names) = .ok h5.choose := dif_pos h5
    obtain ⟨a, m, b, he2, -⟩ := (hbx h5.choose).1 (hn1 ▸ h5.choose_spec.1)
    refine ⟨asymLaplaceUpdate a m b o1, ?_⟩
    have h7 : update .asymmetricLaplace [1, 0, 1] exObj = .ok o1 := rfl
    have h8 : exKit.mom .asymmetricLaplace none none (mean [-1, 0, 0, 1]) (std [-1, 0, 0, 1]) = .ok [1, 0, 1] := rfl
    unfold fitMle
    simp only [way, Refit.optimizeMl, h8, Except.ok_bind', h7, h6, he2]
    rfl
  obtain ⟨d, hd⟩ := hex
  obtain ⟨q, hq⟩ := asymLaplace_ml_run exKit hb exactMin_finds (fun _ _ _ _ _ _ => rfl) _ exObj d rfl hd (1, 0, 1 / 2) ex_best
    (by simp only; linarith) he1
  exact ⟨d, q, hd, hq⟩

example (o d : Obj) (ho : o.names = ["mu", "alpha"]) : fitMle exKit .negativeBinomial (asNumbers [1, 2, 3]) o ≠ .ok d :=
  negBinomial_ml_fails exKit (by
      intro names
      simp [exKit, Support.boxOf, Support.pos]) exactMin_finds (fun _ _ _ _ n => by simp [exKit]) [1, 2, 3] (by simp) o d
    (by simp [exactNames, ho]) (by norm_num [countMean, eps]) (by norm_num [countMean, countVar])

-- the conditions of `negBinomial_ml_run` hold for 0, 0, 4
example : countMean [0, 0, 4] < countVar [0, 0, 4] ∧
    eps ≤ countMean [0, 0, 4] / (4 * (([0, 0, 4] : List ℕ).map fun x : ℕ => (x : ℝ)).sum ^ 2 + 1) := by
  constructor <;> norm_num [countMean, countVar, eps]

end Verif.Props
