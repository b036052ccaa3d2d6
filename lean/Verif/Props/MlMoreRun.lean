import Verif.Props.MlMore
import Verif.Props.MlCountsRun
import Mathlib.Analysis.Convex.SpecificFunctions.Basic
import Mathlib.Analysis.Complex.ExponentialBounds
import Mathlib.Tactic

/-!
# C141: what `mle` does for NegativeBinomial, DiscreteWeibull and Kumaraswamy

For an optimiser that finds the minimum within the bounds and a log-density that is the logarithm of the documented one.
-/

set_option linter.unusedSimpArgs false

namespace Verif.Props
open Verif Verif.Param Verif.NumFit Verif.Refit Verif.Spec Verif.Ml

private theorem eps_pos5 : (0 : ℝ) < eps := by unfold eps; positivity

/-- C141: if the variance of the sample exceeds its mean (and the sample is not so large that parameters below the machine epsilon
come into play), `mle` leaves the object with the parameters of the one most likely NegativeBinomial. -/
theorem negBinomial_ml_run_unique (k : Kit) (hb : OwnBounds k .negativeBinomial) (hm : FindsMinimum k.minimize)
    (hlp : ∀ m a, 0 < m → 0 < a → ∀ n : ℕ, k.logpdf .negativeBinomial [some m, some a] n = Real.log (negBinomialPmf m a n))
    (s : List ℕ) (hs : s ≠ []) (o d : Obj) (hx : o.names ∈ exactNames .negativeBinomial)
    (h : fitMle k .negativeBinomial (asNumbers s) o = .ok d)
    (hbig : eps ≤ countMean s / (4 * (s.map fun x : ℕ => (x : ℝ)).sum ^ 2 + 1)) (p : ℝ × ℝ)
    (hp : Best (fun p : ℝ × ℝ => 0 < p.1 ∧ 0 < p.2) (fun p => negBinomialPmf p.1 p.2) s p) :
    law .negativeBinomial d = [some p.1, some p.2] := by
  have hv := (negBinomial_ml_iff s hs).1 ⟨p, hp⟩
  obtain ⟨a, hl, hbest⟩ := negBinomial_ml_run k hb hm hlp s hs o d hx h hv hbig
  have := ((negBinomial_ml_unique s hs).1 hv).unique hbest hp
  rw [hl, ← this]

private theorem box_kum (k : Kit) (hb : OwnBounds k .kumaraswamy) (names : List String) (x : List ℝ) :
    InBox (k.box .kumaraswamy names) x ↔ ∃ a b, x = [a, b] ∧ eps ≤ a ∧ eps ≤ b := by
  have h1 := box_eq (l := [(((eps : ℝ) : EReal), ⊤), (((eps : ℝ) : EReal), ⊤)]) (hb names)
  rw [h1, inBox_pair]
  simp [EReal.coe_le_coe_iff]

private theorem kum_min (k : Kit) (hb : OwnBounds k .kumaraswamy) (hm : FindsMinimum k.minimize)
    (hlp : ∀ a b, 0 < a → 0 < b → ∀ x, 0 < x → x < 1 → k.logpdf .kumaraswamy [some a, some b] x = Real.log (kumaraswamyPdf a b x))
    (s : List ℝ) (hin : ∀ x ∈ s, 0 < x ∧ x < 1) (o d : Obj) (hx : o.names = ["a", "b"])
    (h : fitMle k .kumaraswamy s o = .ok d) :
    ∃ a b : ℝ, (eps ≤ a ∧ eps ≤ b) ∧ law .kumaraswamy d = [some a, some b] ∧ ∀ a' b', eps ≤ a' → eps ≤ b' →
      lik (kumaraswamyPdf a' b') s ≤ lik (kumaraswamyPdf a b) s := by
  have hbx := box_kum k hb o.names
  obtain ⟨x, hxin, hl, hmin⟩ := run_min k .kumaraswamy (Or.inr ⟨rfl, by simp⟩) hm s o d (by simp [exactNames, hx]) h (by
    intro y o1 hn1 hy
    obtain ⟨a, b, rfl, -⟩ := (hbx y).1 hy
    simp [Gives, update, law, lawAttrs, kumaraswamyUpdate, Obj.setAll, Obj.set, Function.update])
  obtain ⟨a, b, rfl, hab⟩ := (hbx x).1 hxin
  refine ⟨a, b, hab, hl, fun a' b' ha' hb' => ?_⟩
  have he := eps_pos5
  have p1 : 0 < a := he.trans_le hab.1
  have p2 : 0 < b := he.trans_le hab.2
  have p3 : 0 < a' := he.trans_le ha'
  have p4 : 0 < b' := he.trans_le hb'
  have h1 := hmin [a', b'] ((hbx _).2 ⟨_, _, rfl, ha', hb'⟩)
  simp only [List.map_cons, List.map_nil] at h1
  rw [List.map_congr_left fun x hx => hlp a' b' p3 p4 x (hin x hx).1 (hin x hx).2,
    List.map_congr_left fun x hx => hlp a b p1 p2 x (hin x hx).1 (hin x hx).2,
    ← log_lik' fun x hx => kum_pos p3 p4 (hin x hx).1 (hin x hx).2, ← log_lik' fun x hx => kum_pos p1 p2 (hin x hx).1 (hin x hx).2,
    Real.log_le_log_iff (lik_pos' fun x hx => kum_pos p3 p4 (hin x hx).1 (hin x hx).2)
      (lik_pos' fun x hx => kum_pos p1 p2 (hin x hx).1 (hin x hx).2)] at h1
  exact h1

/-- C141: if the most likely Kumaraswamy distribution is at least the machine epsilon away from the end of the domain, `mle` leaves
the object with exactly its parameters. -/
theorem kumaraswamy_ml_run (k : Kit) (hb : OwnBounds k .kumaraswamy) (hm : FindsMinimum k.minimize)
    (hlp : ∀ a b, 0 < a → 0 < b → ∀ x, 0 < x → x < 1 → k.logpdf .kumaraswamy [some a, some b] x = Real.log (kumaraswamyPdf a b x))
    (s : List ℝ) (hs : s ≠ []) (hin : ∀ x ∈ s, 0 < x ∧ x < 1) (o d : Obj) (hx : o.names = ["a", "b"])
    (h : fitMle k .kumaraswamy s o = .ok d) (p : ℝ × ℝ)
    (hp : Best (fun p : ℝ × ℝ => 0 < p.1 ∧ 0 < p.2) (fun p => kumaraswamyPdf p.1 p.2) s p)
    (h1 : eps ≤ p.1) (h2 : eps ≤ p.2) : law .kumaraswamy d = [some p.1, some p.2] := by
  obtain ⟨a, b, hab, hl, hmin⟩ := kum_min k hb hm hlp s hin o d hx h
  have he := eps_pos5
  have hbest : Best (fun p : ℝ × ℝ => 0 < p.1 ∧ 0 < p.2) (fun p => kumaraswamyPdf p.1 p.2) s (a, b) :=
    ⟨⟨he.trans_le hab.1, he.trans_le hab.2⟩, fun q hq => (hp.2 q hq).trans (hmin _ _ h1 h2)⟩
  have := (kumaraswamy_ml_unique s hs hin ((kumaraswamy_ml_iff s hs hin).1 ⟨p, hp⟩)).unique hbest hp
  rw [hl, ← this]

/-- C141: for a constant sample a search that only ever returns minima cannot return. -/
theorem kumaraswamy_ml_fails (k : Kit) (hb : OwnBounds k .kumaraswamy) (hm : FindsMinimum k.minimize)
    (hlp : ∀ a b, 0 < a → 0 < b → ∀ x, 0 < x → x < 1 → k.logpdf .kumaraswamy [some a, some b] x = Real.log (kumaraswamyPdf a b x))
    (s : List ℝ) (hs : s ≠ []) (c : ℝ) (hc : 0 < c ∧ c < 1) (hcs : ∀ x ∈ s, x = c) (o d : Obj) (hx : o.names = ["a", "b"]) :
    fitMle k .kumaraswamy s o ≠ .ok d := by
  intro h
  have hin : ∀ x ∈ s, 0 < x ∧ x < 1 := fun x hx => hcs x hx ▸ hc
  obtain ⟨a, b, hab, hl, hmin⟩ := kum_min k hb hm hlp s hin o d hx h
  obtain ⟨a', b', ha', hb', hlt⟩ := kumaraswamy_ml_constant s hs hin c hcs (lik (kumaraswamyPdf a b) s)
  have he1 : eps ≤ 1 := by unfold eps; norm_num
  exact absurd (hmin a' b' (he1.trans ha') (he1.trans hb')) (not_le.2 hlt)

/-- C141: if there is a most likely DiscreteWeibull at least the machine epsilon away from the end of the domain, `mle` leaves the
object with most likely parameters. -/
theorem discreteWeibull_ml_run (k : Kit) (hb : OwnBounds k (.simple .discreteWeibull)) (hm : FindsMinimum k.minimize)
    (hlp : ∀ q b, 0 < q → q < 1 → 0 < b → ∀ n : ℕ,
      k.logpdf (.simple .discreteWeibull) [some q, some b] n = Real.log (discreteWeibullPmf q b n))
    (s : List ℕ) (o d : Obj) (hx : o.names = ["q", "beta"])
    (h : fitMle k (.simple .discreteWeibull) (asNumbers s) o = .ok d) (p : ℝ × ℝ)
    (hp : Best (fun p : ℝ × ℝ => (0 < p.1 ∧ p.1 < 1) ∧ 0 < p.2) (fun p => discreteWeibullPmf p.1 p.2) s p)
    (h1 : eps ≤ p.1 ∧ p.1 ≤ 1 - eps) (h2 : eps ≤ p.2) :
    ∃ r : ℝ × ℝ, law (.simple .discreteWeibull) d = [some r.1, some r.2] ∧
      Best (fun p : ℝ × ℝ => (0 < p.1 ∧ p.1 < 1) ∧ 0 < p.2) (fun p => discreteWeibullPmf p.1 p.2) s r := by
  have hbx : ∀ x, InBox (k.box (.simple .discreteWeibull) o.names) x ↔ ∃ a b, x = [a, b] ∧ (eps ≤ a ∧ a ≤ 1 - eps) ∧ eps ≤ b := by
    intro x
    have h1 := box_eq (l := [(((eps : ℝ) : EReal), ((1 - eps : ℝ) : EReal)), (((eps : ℝ) : EReal), ⊤)]) (hb o.names)
    rw [h1, inBox_pair]
    have h2 : ∀ a : ℝ, ((a : EReal) ≤ ((1 - eps : ℝ) : EReal)) ↔ a ≤ 1 - eps := fun a => EReal.coe_le_coe_iff
    simp only [h2, EReal.coe_le_coe_iff, le_top, and_true]
  obtain ⟨x, hxin, hl, hmin⟩ := run_min k (.simple .discreteWeibull) (Or.inr ⟨rfl, by simp⟩) hm (asNumbers s) o d
    (by simp [exactNames, simpleFam, hx]) h (by
    intro y o1 hn1 hy
    obtain ⟨a, b, rfl, -⟩ := (hbx y).1 hy
    simp [Gives, update, law, lawAttrs, simpleUpdate, simpleFam, Obj.setAll, Obj.set, Function.update])
  obtain ⟨q, b, rfl, hq, hb'⟩ := (hbx x).1 hxin
  have he := eps_pos5
  have h3 := hmin [p.1, p.2] ((hbx _).2 ⟨_, _, rfl, h1, h2⟩)
  have p1 : 0 < q := he.trans_le hq.1
  have p2 : q < 1 := by linarith [hq.2]
  have p3 : 0 < b := he.trans_le hb'
  obtain ⟨⟨q1, q2⟩, q3⟩ := hp.1
  have hsum : ∀ g : ℝ → ℝ, ((asNumbers s).map g).sum = (s.map fun n : ℕ => g n).sum := by
    intro g
    unfold asNumbers
    rw [List.map_map]
    rfl
  rw [hsum, hsum] at h3
  simp only [List.map_cons, List.map_nil, hlp _ _ p1 p2 p3, hlp _ _ q1 q2 q3] at h3
  rw [← log_lik' fun x _ => disWeibull_pos q1 q2 q3 x, ← log_lik' fun x _ => disWeibull_pos p1 p2 p3 x,
    Real.log_le_log_iff (lik_pos' fun x _ => disWeibull_pos q1 q2 q3 x) (lik_pos' fun x _ => disWeibull_pos p1 p2 p3 x)] at h3
  exact ⟨(q, b), hl, ⟨⟨p1, p2⟩, p3⟩, fun r hr => (hp.2 r hr).trans h3⟩

/-! ## Examples -/

private noncomputable def moreKit : Kit where
  est _ _ := .error .valueError
  mom _ _ _ _ _ := .ok [1, 1]
  meanStd _ _ := (0, 0)
  start _ := [1, 1]
  box f names := (Support.boxOf none names f).map fun p => (p.1, p.2.getD ⊤)
  logpdf f ps x := match f, ps with
    | .simple .discreteWeibull, [some q, some b] => Real.log (discreteWeibullPmf q b ⌊x⌋₊)
    | .kumaraswamy, [some a, some b] => Real.log (kumaraswamyPdf a b x)
    | _, _ => 0
  leastSquares _ _ := .ok (.stop [1 / 2, 1])
  minimize := exactMin

-- a constant sample
example (o d : Obj) (ho : o.names = ["a", "b"]) : fitMle moreKit .kumaraswamy [1 / 3, 1 / 3] o ≠ .ok d :=
  kumaraswamy_ml_fails moreKit (by
      intro names
      simp [moreKit, Support.boxOf, Support.pos]) exactMin_finds (fun _ _ _ _ _ _ _ => rfl) _ (by simp) (1 / 3) (by norm_num)
    (by simp) o d ho

-- the most likely distribution for 1/4, 1/2 is far enough from the end of the domain
example (p : ℝ × ℝ) (hp : Best (fun p : ℝ × ℝ => 0 < p.1 ∧ 0 < p.2) (fun p => kumaraswamyPdf p.1 p.2) [1 / 4, 1 / 2] p) :
    eps ≤ p.1 ∧ eps ≤ p.2 := by
  have hin : ∀ x ∈ ([1 / 4, 1 / 2] : List ℝ), 0 < x ∧ x < 1 := by
    intro x hx
    simp only [List.mem_cons, List.not_mem_nil, or_false] at hx
    rcases hx with rfl | rfl <;> norm_num
  obtain ⟨g1, g2⟩ := hp.1
  obtain ⟨L, hL⟩ : ∃ L, L = Real.log 2 := ⟨_, rfl⟩
  have L1 : 0.693 < L := by rw [hL]; linarith [Real.log_two_gt_d9]
  have L2 : L < 0.694 := by rw [hL]; linarith [Real.log_two_lt_d9]
  have hts : ([1 / 4, 1 / 2] : List ℝ).map (fun x => -Real.log x) = [2 * L, L] := by
    have : Real.log (1 / 4) = -(2 * L) := by
      rw [hL, show (1 / 4 : ℝ) = (2 ^ 2)⁻¹ by norm_num, Real.log_inv, Real.log_pow]
      push_cast
      ring
    have h2 : Real.log (1 / 2) = -L := by rw [hL, one_div, Real.log_inv]
    simp only [List.map_cons, List.map_nil, this, h2, neg_neg]
  have hpos : ∀ t ∈ [2 * L, L], 0 < t := by
    intro t ht
    simp only [List.mem_cons, List.not_mem_nil, or_false] at ht
    rcases ht with rfl | rfl <;> linarith
  have hne : [2 * L, L] ≠ [] := by simp
  obtain ⟨⟨-, hbv⟩, hmax⟩ := (kum_best _ (by simp) hin p).1 hp
  rw [hts] at hbv hmax
  have hup := kw_up (ts := [2 * L, L]) hpos g1
  simp only [List.map_cons, List.map_nil, List.sum_cons, List.sum_nil, List.length_cons, List.length_nil, add_zero] at hup
  norm_num at hup
  have he := eps_pos5
  have hes : eps ≤ 1 / 1000 := by unfold eps; norm_num
  have heL : Real.log eps = -(52 * L) := by
    rw [hL]
    unfold eps
    rw [Real.log_pow, one_div, Real.log_inv]
    push_cast
    ring
  have h1 : eps ≤ p.1 := by
    by_contra hc
    push Not at hc
    have hla : Real.log p.1 ≤ -(52 * L) := heL ▸ Real.log_le_log g1 hc.le
    have hk : ∀ z, 0 < z → -Real.log z ≤ kw z := by
      intro z hz
      unfold kw
      have := Real.log_le_log (kw_base hz) (show 1 - Real.exp (-z) ≤ z by linarith [Real.add_one_le_exp (-z)])
      linarith
    have hW : 103 * L ≤ kwSum [2 * L, L] p.1 := by
      have k1 := hk (p.1 * (2 * L)) (by positivity)
      have k2 := hk (p.1 * L) (mul_pos g1 (by linarith))
      rw [Real.log_mul g1.ne' (by linarith)] at k1 k2
      have k3 : Real.log (2 * L) ≤ L := by rw [Real.log_mul (by norm_num) (by linarith), ← hL]; linarith [Real.log_nonpos (show 0 ≤ L by linarith) (by linarith)]
      have k4 := Real.log_nonpos (show 0 ≤ L by linarith) (by linarith)
      unfold kwSum
      simp only [List.map_cons, List.map_nil, List.sum_cons, List.sum_nil, add_zero]
      linarith
    have hlW : 6 * L ≤ Real.log (kwSum [2 * L, L] p.1) := by
      have := Real.log_le_log (show (0 : ℝ) < 2 ^ 6 by norm_num) (show (2 : ℝ) ^ 6 ≤ kwSum [2 * L, L] p.1 by linarith)
      rw [Real.log_pow] at this
      push_cast at this
      rwa [← hL] at this
    have u1 : Real.log (L⁻¹ * (1 / 2) + p.1) ≤ 0 := by
      have : L⁻¹ ≤ 1.5 := by rw [inv_le_comm₀ (by linarith) (by norm_num)]; linarith
      exact Real.log_nonpos (by positivity) (by linarith)
    have u2 : Real.log (L⁻¹ + p.1) ≤ L := by
      have : L⁻¹ ≤ 1.5 := by rw [inv_le_comm₀ (by linarith) (by norm_num)]; linarith
      rw [hL] at *
      exact Real.log_le_log (by positivity) (by linarith)
    have hm := hmax 1 one_pos
    have hW1 : kwSum [2 * L, L] 1 ≤ 2 * L ∧ 0 < kwSum [2 * L, L] 1 := by
      refine ⟨?_, kwSum_pos hne hpos one_pos⟩
      have e1 : Real.exp (-L) = 1 / 2 := by rw [hL, Real.exp_neg, Real.exp_log (by norm_num)]; norm_num
      have e2 : Real.exp (-(2 * L)) = 1 / 4 := by
        rw [show -(2 * L) = -L + -L by ring, Real.exp_add, e1]
        norm_num
      unfold kwSum kw
      simp only [List.map_cons, List.map_nil, List.sum_cons, List.sum_nil, add_zero, one_mul, e1, e2]
      have a1 : Real.log (1 - 1 / 2) = -L := by rw [hL, ← Real.log_inv]; norm_num
      have a2 := Real.log_le_log (show (0 : ℝ) < 1 / 2 by norm_num) (show (1 / 2 : ℝ) ≤ 1 - 1 / 4 by norm_num)
      rw [a1]
      rw [show (1 / 2 : ℝ) = 1 - 1 / 2 by norm_num, a1] at a2
      linarith
    have hl1 := Real.log_le_sub_one_of_pos hW1.2
    unfold kumProf at hm
    simp only [List.length_cons, List.length_nil, Real.log_one, List.sum_cons, List.sum_nil] at hm
    norm_num at hm
    nlinarith [hW1.1, mul_pos g1 (show 0 < L by linarith)]
  refine ⟨h1, ?_⟩
  have hL0 : 0 < L := by linarith
  have hlg : ∀ x : ℝ, 0 < x → Real.log x ≤ x / 2 := by
    intro x hx
    have := Real.log_le_sub_one_of_pos (show 0 < x / 2 by positivity)
    rw [Real.log_div hx.ne' (by norm_num), ← hL] at this
    linarith
  have v1 := hlg ((L⁻¹ * (1 / 2) + p.1) / p.1) (by positivity)
  have v2 := hlg ((L⁻¹ + p.1) / p.1) (by positivity)
  rw [Real.log_div (by positivity) g1.ne'] at v1 v2
  have hWp := kwSum_pos hne hpos g1
  have hW : kwSum [2 * L, L] p.1 ≤ 1 + 3 / 4 * (L⁻¹ / p.1) := by
    have e : (L⁻¹ * (1 / 2) + p.1) / p.1 / 2 + (L⁻¹ + p.1) / p.1 / 2 = 1 + 3 / 4 * (L⁻¹ / p.1) := by
      field_simp
      ring
    linarith
  have hq : L⁻¹ / p.1 ≤ 1.5 / eps := by
    have : L⁻¹ ≤ 1.5 := by rw [inv_le_comm₀ (by linarith) (by norm_num)]; linarith
    gcongr
  rw [hbv, le_div_iff₀ hWp]
  simp only [List.length_cons, List.length_nil]
  have : eps * (1 + 3 / 4 * (1.5 / eps)) ≤ 2 := by
    have : eps * (1 + 3 / 4 * (1.5 / eps)) = eps + 9 / 8 := by field_simp; ring
    linarith
  push_cast
  have h4 : eps * kwSum [2 * L, L] p.1 ≤ eps * (1 + 3 / 4 * (1.5 / eps)) := by gcongr; linarith
  linarith

-- so are all most likely distributions for 0, 2
example (p : ℝ × ℝ)
    (hp : Best (fun p : ℝ × ℝ => (0 < p.1 ∧ p.1 < 1) ∧ 0 < p.2) (fun p => discreteWeibullPmf p.1 p.2) [0, 2] p) :
    (eps ≤ p.1 ∧ p.1 ≤ 1 - eps) ∧ eps ≤ p.2 := by
  obtain ⟨⟨q1, q2⟩, q3⟩ := hp.1
  have he : eps ≤ 1 / 16 := by unfold eps; norm_num
  have h := hp.2 (1 / 2, 1) (by norm_num)
  have e : lik (discreteWeibullPmf (1 / 2) 1) [0, 2] = 1 / 16 := by
    norm_num [lik, discreteWeibullPmf]
  have e2 : lik (discreteWeibullPmf p.1 p.2) [0, 2] = discreteWeibullPmf p.1 p.2 0 * discreteWeibullPmf p.1 p.2 2 := by
    simp [lik]
  simp only [e, e2] at h
  have a0 := disWeibull_le_one q1 q2 q3 0
  have a2 := disWeibull_le_one q1 q2 q3 2
  have b0 := disWeibull_pos q1 q2 q3 0
  have b2 := disWeibull_pos q1 q2 q3 2
  have h0 : 1 / 16 ≤ discreteWeibullPmf p.1 p.2 0 := by nlinarith
  have h2 : 1 / 16 ≤ discreteWeibullPmf p.1 p.2 2 := by nlinarith
  have c0 : discreteWeibullPmf p.1 p.2 0 = 1 - p.1 := by simp [discreteWeibullPmf, Real.zero_rpow q3.ne']
  have c2 : discreteWeibullPmf p.1 p.2 2 ≤ p.1 := by
    refine (disWeibull_le_tail q1 q2 q3 2).trans ?_
    have := Real.rpow_le_rpow_of_exponent_ge q1 q2.le (show (1 : ℝ) ≤ ((2 : ℕ) : ℝ) ^ p.2 from
      Real.one_le_rpow (by norm_num) q3.le)
    rwa [Real.rpow_one] at this
  have c3 := disWeibull_small q1 q2 q3 2 (by norm_num)
  refine ⟨⟨by linarith, by linarith⟩, ?_⟩
  by_contra hc
  push Not at hc
  have c4 := rpow_one_add_le_one_add_mul_self (show (-1 : ℝ) ≤ 1 by norm_num) q3.le (by linarith)
  norm_num at c4
  linarith

end Verif.Props
