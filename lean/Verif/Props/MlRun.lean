import Verif.Props.MlExist
import Verif.Props.MlFit
import Verif.Props.Refit
import Verif.Props.HalfScale
import Verif.Model.Support
import Mathlib.Tactic

/-!
# C139: `mle` finds the only most likely distribution

For an optimiser that finds the minimum within the bounds and a log-density that is the logarithm of the documented density.
-/

set_option linter.unusedSimpArgs false

namespace Verif.Props
open Verif Verif.Param Verif.NumFit Verif.Refit Verif.Spec Verif.Ml

/-- the bounds the optimiser is given are the ones the class assigns (`params_support`) -/
def OwnBounds (k : Kit) (f : Family) : Prop :=
  ∀ names, (k.box f names).map (fun p => (p.1, some p.2)) = Support.boxOf none names f

/-- the family is fitted numerically and keeps its parameter names while it is -/
private theorem run_names (k : Kit) (f : Family) (hw : way f ≠ .direct)
    (s : List ℝ) (o d : Obj) (hx : o.names ∈ exactNames f) (h : fitMle k f s o = .ok d) :
    ∃ o1 x, o1.names = o.names ∧ k.minimize (Refit.negll k f o1 s) (o1.params.getD []) (k.box f o.names) = .ok x ∧
      update f x o1 = .ok d := by
  have main : ∀ g : Obj → Except Err Obj, (∀ o1, g o = .ok o1 → o1.names = o.names) → Refit.optimizeMl k f g o s = .ok d →
      ∃ o1 x, o1.names = o.names ∧ k.minimize (Refit.negll k f o1 s) (o1.params.getD []) (k.box f o.names) = .ok x ∧
      update f x o1 = .ok d := by
    intro g hg h
    unfold Refit.optimizeMl at h
    cases h1 : g o with
    | error e => rw [h1] at h; simp [Except.error_bind'] at h
    | ok o1 =>
      rw [h1] at h
      simp only [Except.ok_bind'] at h
      have hn := hg o1 h1
      rw [hn] at h
      cases h2 : k.minimize (Refit.negll k f o1 s) (o1.params.getD []) (k.box f o.names) with
      | error e => rw [h2] at h; simp [Except.error_bind'] at h
      | ok x =>
        rw [h2] at h
        simp only [Except.ok_bind'] at h
        exact ⟨o1, x, hn, h2, h⟩
  have start : ∀ r : Except Err (List ℝ), ∀ o1, (do let v ← r; update f v o : Except Err Obj) = .ok o1 → o1.names = o.names := by
    intro r o1 h1
    cases r with
    | error e => simp [Except.error_bind'] at h1
    | ok v =>
      simp only [Except.ok_bind'] at h1
      exact update_names f v o o1 h1
  unfold fitMle at h
  cases hway : way f with
  | direct => exact absurd hway hw
  | closedStart =>
    rw [hway] at h
    exact main _ (fun o1 => start _ o1) h
  | boxStart =>
    rw [hway] at h
    exact main _ (fun o1 => start _ o1) h
  | nuStart =>
    rw [hway] at h
    exact main _ (fun o1 => start _ o1) h
  | numericStart =>
    rw [hway] at h
    dsimp only at h
    -- the object whose fit is started: SkewNormal has received an `alpha`
    obtain ⟨o0, ho0, h⟩ : ∃ o0 : Obj, o0.names = o.names ∧ Refit.optimizeMl k f (fun o => do
      let (_, o) ← optimizeMeanSigma k.leastSquares f (k.meanStd f) (mean s) (std s) (k.start f) (k.box f o.names) o
      return o) o0 s = .ok d := by
      by_cases hsk : f = .skewNormal
      · rw [if_pos hsk] at h
        cases ha : skewAlpha s with
        | none => rw [ha] at h; simp [Except.error_bind'] at h
        | some a =>
          rw [ha] at h
          simp only [Except.ok_bind'] at h
          exact ⟨o.set "alpha" (some a), rfl, h⟩
      · rw [if_neg hsk] at h
        simp only [Except.ok_bind'] at h
        exact ⟨o, rfl, h⟩
    unfold Refit.optimizeMl at h
    cases h2 : optimizeMeanSigma k.leastSquares f (k.meanStd f) (mean s) (std s) (k.start f) (k.box f o0.names) o0 with
    | error e => simp only [h2] at h; simp [Except.error_bind'] at h
    | ok r =>
      simp only [h2, Except.ok_bind', Except.pure_eq] at h
      have hn : r.2.names = o.names := (meanSigma_names f hway _ _ _ _ _ _ o0 (ho0 ▸ hx) r h2).trans ho0
      rw [hn] at h
      cases h3 : k.minimize (Refit.negll k f r.2 s) (r.2.params.getD []) (k.box f o.names) with
      | error e => rw [h3] at h; simp [Except.error_bind'] at h
      | ok x =>
        rw [h3] at h
        simp only [Except.ok_bind'] at h
        exact ⟨r.2, x, hn, h3, h⟩

/-- what a numerical fit amounts to -/
theorem run_min_any (k : Kit) (f : Family) (hw : way f ≠ .direct)
    (hm : FindsMinimum k.minimize) (s : List ℝ) (o d : Obj) (hx : o.names ∈ exactNames f) (h : fitMle k f s o = .ok d)
    (hlaw : ∀ x o1, o1.names = o.names → InBox (k.box f o.names) x → Gives (update f x o1) fun o2 => law f o2 = x.map some) :
    ∃ x, InBox (k.box f o.names) x ∧ law f d = x.map some ∧ ∀ y, InBox (k.box f o.names) y →
      (s.map fun t => k.logpdf f (y.map some) t).sum ≤ (s.map fun t => k.logpdf f (x.map some) t).sum := by
  obtain ⟨o1, x, hn, h1, h2⟩ := run_names k f hw s o d hx h
  obtain ⟨hin, hmin⟩ := hm _ _ _ _ h1
  have hval : ∀ y, InBox (k.box f o.names) y →
      Refit.negll k f o1 s y = .ok (-(s.map fun t => k.logpdf f (y.map some) t).sum) := by
    intro y hy
    have h3 := hlaw y o1 hn hy
    unfold Refit.negll
    cases h4 : update f y o1 with
    | error e => rw [h4] at h3; exact absurd h3 (by simp [Gives])
    | ok o2 =>
      rw [h4] at h3
      have h3 : law f o2 = y.map some := by simpa [Gives] using h3
      simp only [Except.ok_bind', Except.pure_eq, h3]
  refine ⟨x, hin, ?_, fun y hy => ?_⟩
  · have h3 := hlaw x o1 hn hin
    rw [h2] at h3
    simpa [Gives] using h3
  · have := hmin y hy _ _ (hval x hin) (hval y hy)
    linarith

/-- the same for two ways of starting -/
theorem run_min (k : Kit) (f : Family) (hw : way f = .closedStart ∨ way f = .numericStart ∧ f ≠ .skewNormal)
    (hm : FindsMinimum k.minimize) (s : List ℝ) (o d : Obj) (hx : o.names ∈ exactNames f) (h : fitMle k f s o = .ok d)
    (hlaw : ∀ x o1, o1.names = o.names → InBox (k.box f o.names) x → Gives (update f x o1) fun o2 => law f o2 = x.map some) :
    ∃ x, InBox (k.box f o.names) x ∧ law f d = x.map some ∧ ∀ y, InBox (k.box f o.names) y →
      (s.map fun t => k.logpdf f (y.map some) t).sum ≤ (s.map fun t => k.logpdf f (x.map some) t).sum :=
  run_min_any k f (by rcases hw with h | ⟨h, -⟩ <;> rw [h] <;> decide) hm s o d hx h hlaw

/-- class names -/
def mlFamily : MlFam → Family
  | .gumbel => .simple .gumbel
  | .logistic => .simple .logistic
  | .moyal => .simple .moyal
  | .weibull => .simple .weibull
  | .logLogistic => .simple .logLogistic
  | .gamma => .gamma
  | .inverseGamma => .inverseGamma
  | .beta => .beta
  | .wald => .wald
  | .pareto => .simple .pareto

/-- parameters at least the machine epsilon away from the end of their domain -/
def MlNear : MlFam → ℝ → ℝ → Prop
  | .gumbel, _, b => eps ≤ b
  | .logistic, _, b => eps ≤ b
  | .moyal, _, b => eps ≤ b
  | _, a, b => eps ≤ a ∧ eps ≤ b

theorem box_eq {b : Box} {l : List (EReal × EReal)}
    (h : b.map (fun p => (p.1, some p.2)) = l.map fun p => (p.1, some p.2)) : b = l := by
  have hi : Function.Injective fun p : EReal × EReal => (p.1, some p.2) := by
    rintro ⟨a, b⟩ ⟨c, d⟩ h
    simpa using h
  exact List.map_injective_iff.2 hi h

theorem inBox_pair (p q : EReal × EReal) (x : List ℝ) :
    InBox [p, q] x ↔ ∃ a b, x = [a, b] ∧ (p.1 ≤ (a : EReal) ∧ (a : EReal) ≤ p.2) ∧ (q.1 ≤ (b : EReal) ∧ (b : EReal) ≤ q.2) := by
  unfold InBox
  constructor
  · rintro ⟨h, h2⟩
    obtain ⟨a, b, rfl⟩ := List.length_eq_two.1 (by simpa using h)
    exact ⟨a, b, rfl, h2 0 (by simp) (by simp), h2 1 (by simp) (by simp)⟩
  · rintro ⟨a, b, rfl, h1, h2⟩
    refine ⟨rfl, fun i hi hi' => ?_⟩
    have : i < 2 := by simpa using hi
    interval_cases i
    · exact h1
    · exact h2

private theorem ml_box (F : MlFam) (k : Kit) (hb : OwnBounds k (mlFamily F)) (names : List String)
    (hbeta : F = .beta → names = ["alpha", "beta"]) (x : List ℝ) :
    InBox (k.box (mlFamily F) names) x ↔ ∃ a b, x = [a, b] ∧ MlNear F a b := by
  have h := hb names
  cases F with
  | gumbel | logistic | moyal =>
    have h1 := box_eq (l := [(⊥, ⊤), (((eps : ℝ) : EReal), ⊤)]) h
    rw [h1, inBox_pair]
    simp [MlNear, EReal.coe_le_coe_iff]
  | beta =>
    have h' := hbeta rfl
    subst h'
    have h1 := box_eq (l := [(((eps : ℝ) : EReal), ⊤), (((eps : ℝ) : EReal), ⊤)]) (by
      rw [h]
      simp [mlFamily, Support.boxOf, Support.pos])
    rw [h1, inBox_pair]
    simp [MlNear, EReal.coe_le_coe_iff]
  | _ =>
    have h1 := box_eq (l := [(((eps : ℝ) : EReal), ⊤), (((eps : ℝ) : EReal), ⊤)]) h
    rw [h1, inBox_pair]
    simp [MlNear, EReal.coe_le_coe_iff]

private theorem ml_update (F : MlFam) (o : Obj) (hx : o.names ∈ exactNames (mlFamily F)) (a b : ℝ) :
    Gives (update (mlFamily F) [a, b] o) fun o2 => law (mlFamily F) o2 = [some a, some b] := by
  cases F <;> simp only [mlFamily, exactNames, List.mem_cons, List.not_mem_nil, or_false] at hx
  case gamma | inverseGamma => 
    rcases hx with h | h <;>
    simp [Gives, update, mlFamily, law, lawAttrs, h, gammaUpdate, invGammaUpdate, Obj.setAll, Obj.set, Function.update]
  case beta | wald =>
    rcases hx with h | h | h <;>
    simp [Gives, update, mlFamily, law, lawAttrs, h, betaUpdate, waldUpdate, Obj.setAll, Obj.set, Function.update]
  all_goals
    simp [Gives, update, mlFamily, law, lawAttrs, simpleUpdate, simpleFam, Obj.setAll, Obj.set, Function.update]

private theorem eps_pos'' : (0 : ℝ) < eps := by unfold eps; positivity

private theorem near_good (F : MlFam) (a b : ℝ) (h : MlNear F a b) : F.Good a b := by
  have he := eps_pos''
  cases F with
  | gumbel | logistic | moyal => exact he.trans_le h
  | _ => exact ⟨he.trans_le h.1, he.trans_le h.2⟩

private theorem ml_pdf_pos (F : MlFam) (hF : F ≠ .pareto) (a b x : ℝ) (hg : F.Good a b) (hx : F.Inside x) :
    0 < F.pdf a b x := by
  have main : ∀ {U : ℝ × ℝ → Prop} {G : ℝ × ℝ → ℝ} {T R : ℝ × ℝ → ℝ × ℝ} {K C : ℝ},
      Red F [x] U (fun p => F.Good p.1 p.2) G T R K C → 0 < F.pdf a b x := by
    intro U G T R K C h
    have := h.pos (a, b) hg
    simpa [lik] using this
  cases F with
  | gumbel => obtain ⟨C, h⟩ := red_gumbel [x]; exact main h
  | logistic => obtain ⟨C, h⟩ := red_logistic [x]; exact main h
  | moyal => obtain ⟨C, h⟩ := red_moyal [x]; exact main h
  | weibull => obtain ⟨C, h⟩ := red_weibull [x] (by simpa [MlFam.Inside] using hx); exact main h
  | logLogistic => obtain ⟨C, h⟩ := red_logLogistic [x] (by simpa [MlFam.Inside] using hx); exact main h
  | gamma => obtain ⟨C, h⟩ := red_gamma [x] (by simp) (by simpa [MlFam.Inside] using hx); exact main h
  | inverseGamma => obtain ⟨C, h⟩ := red_inverseGamma [x] (by simp) (by simpa [MlFam.Inside] using hx); exact main h
  | beta => obtain ⟨C, h⟩ := red_beta [x] (by simp) (by simpa [MlFam.Inside] using hx); exact main h
  | wald => obtain ⟨C, h⟩ := red_wald [x] (by simp) (by simpa [MlFam.Inside] using hx); exact main h
  | pareto => exact absurd rfl hF

/-- C139: if the most likely parameters are at least the machine epsilon away from the end of their domain, an optimiser that
finds the minimum leaves the object with exactly these parameters.  (Pareto is left out: its density is zero for some
parameters. A Beta must not be given by its mean, see C66.) -/
theorem ml_run (F : MlFam) (hF : F ≠ .pareto) (k : Kit) (hb : OwnBounds k (mlFamily F)) (hm : FindsMinimum k.minimize)
    (hlp : ∀ a b, F.Good a b → ∀ x, k.logpdf (mlFamily F) [some a, some b] x = Real.log (F.pdf a b x)) (s : List ℝ) (hs : s ≠ [])
    (hin : ∀ x ∈ s, F.Inside x) (o d : Obj) (hx : o.names ∈ exactNames (mlFamily F))
    (hbeta : F = .beta → o.names = ["alpha", "beta"]) (h : fitMle k (mlFamily F) s o = .ok d) (p : ℝ × ℝ)
    (hp : F.MostLikely s p) (hn : MlNear F p.1 p.2) : law (mlFamily F) d = [some p.1, some p.2] := by
  have hw : way (mlFamily F) = .closedStart ∨ way (mlFamily F) = .numericStart ∧ mlFamily F ≠ .skewNormal := by
    cases F <;> simp [mlFamily, way]
  have hbx := ml_box F k hb o.names hbeta
  obtain ⟨x, hxin, hl, hmin⟩ := run_min k (mlFamily F) hw hm s o d hx h (by
    intro y o1 hn1 hy
    obtain ⟨a, b, rfl, -⟩ := (hbx y).1 hy
    exact ml_update F o1 (by rw [hn1]; exact hx) a b)
  obtain ⟨a, b, rfl, hab⟩ := (hbx x).1 hxin
  have hg := near_good F a b hab
  have hgp := hp.1
  have h2 := hmin [p.1, p.2] ((hbx _).2 ⟨_, _, rfl, hn⟩)
  simp only [List.map_cons, List.map_nil, hlp _ _ hg, hlp _ _ hgp] at h2
  rw [← log_lik fun x hx => ml_pdf_pos F hF _ _ x hgp (hin x hx), ← log_lik fun x hx => ml_pdf_pos F hF _ _ x hg (hin x hx),
    Real.log_le_log_iff (lik_pos fun x hx => ml_pdf_pos F hF _ _ x hgp (hin x hx))
      (lik_pos fun x hx => ml_pdf_pos F hF _ _ x hg (hin x hx))] at h2
  have hab' : F.MostLikely s (a, b) := ⟨hg, fun a' b' hg' => (hp.2 a' b' hg').trans h2⟩
  have hu := ml_unique F s hin ((ml_iff F s hs hin).1 ⟨p, hp⟩)
  have he := hu.unique hab' hp
  rw [hl, ← he]
  rfl

/-- C139: the same for Cauchy, if every value makes up less than half of the sample. -/
theorem cauchy_ml_run (k : Kit) (hb : OwnBounds k (.simple .cauchy)) (hm : FindsMinimum k.minimize)
    (hlp : ∀ a b, 0 < b → ∀ x, k.logpdf (.simple .cauchy) [some a, some b] x = Real.log (cauchyPdf a b x)) (s : List ℝ) (hs : s ≠ [])
    (hc : ∀ c ∈ s, 2 * s.count c < s.length) (o d : Obj) (hx : o.names = ["alpha", "beta"])
    (h : fitMle k (.simple .cauchy) s o = .ok d) (p : ℝ × ℝ)
    (hp : Best (fun p => 0 < p.2) (fun p => cauchyPdf p.1 p.2) s p) (hn : eps ≤ p.2) :
    law (.simple .cauchy) d = [some p.1, some p.2] := by
  have h1 := box_eq (l := [(⊥, ⊤), (((eps : ℝ) : EReal), ⊤)]) (hb o.names)
  have hbx : ∀ x, InBox (k.box (.simple .cauchy) o.names) x ↔ ∃ a b, x = [a, b] ∧ eps ≤ b := by
    intro x
    rw [h1, inBox_pair]
    simp [EReal.coe_le_coe_iff]
  have hpos : ∀ a b : ℝ, 0 < b → ∀ x, 0 < cauchyPdf a b x := by
    intro a b hb x
    unfold cauchyPdf
    have := Real.pi_pos
    positivity
  obtain ⟨x, hxin, hl, hmin⟩ := run_min k (.simple .cauchy) (Or.inl rfl) hm s o d (by simp [exactNames, simpleFam, hx]) h (by
    intro y o1 hn1 hy
    obtain ⟨a, b, rfl, -⟩ := (hbx y).1 hy
    simp [Gives, update, law, lawAttrs, simpleUpdate, simpleFam, Obj.setAll, Obj.set, Function.update])
  obtain ⟨a, b, rfl, hab⟩ := (hbx x).1 hxin
  have hg : 0 < b := eps_pos''.trans_le hab
  have h2 := hmin [p.1, p.2] ((hbx _).2 ⟨_, _, rfl, hn⟩)
  simp only [List.map_cons, List.map_nil, hlp _ _ hg, hlp _ _ hp.1] at h2
  rw [← log_lik fun x _ => hpos _ _ hp.1 x, ← log_lik fun x _ => hpos _ _ hg x,
    Real.log_le_log_iff (lik_pos fun x _ => hpos _ _ hp.1 x) (lik_pos fun x _ => hpos _ _ hg x)] at h2
  have he := (cauchy_ml_unique s hs hc).unique (y₁ := (a, b)) ⟨hg, fun q hq => (hp.2 q hq).trans h2⟩ hp
  rw [hl, ← he]
  rfl

/-- C139: the same for the families with one parameter. -/
theorem one_ml_run (f : Family) (pdf : ℝ → ℝ → ℝ) (hf : f = .simple .chiSquared ∧ pdf = chiSquaredPdf ∨
    f = .simple .halfCauchy ∧ pdf = halfCauchyPdf) (k : Kit) (hb : OwnBounds k f) (hm : FindsMinimum k.minimize)
    (hlp : ∀ a, 0 < a → ∀ x, k.logpdf f [some a] x = Real.log (pdf a x)) (s : List ℝ) (hs : s ≠ [])
    (hin : ∀ x ∈ s, 0 < x) (o d : Obj) (hx : o.names ∈ exactNames f) (h : fitMle k f s o = .ok d) (p : ℝ)
    (hp : Best (fun b => 0 < b) pdf s p) (hn : eps ≤ p) : law f d = [some p] := by
  have h1 : k.box f o.names = [(((eps : ℝ) : EReal), ⊤)] := by
    have := hb o.names
    rcases hf with ⟨rfl, -⟩ | ⟨rfl, -⟩ <;> exact box_eq this
  have hbx : ∀ x, InBox (k.box f o.names) x ↔ ∃ a, x = [a] ∧ eps ≤ a := by
    intro x
    rw [h1]
    constructor
    · intro h
      obtain ⟨a, rfl⟩ := List.length_eq_one_iff.1 (show x.length = 1 from h.1)
      exact ⟨a, rfl, (half_in a).1 h⟩
    · rintro ⟨a, rfl, ha⟩
      exact (half_in a).2 ha
  have hpos : ∀ b : ℝ, 0 < b → ∀ x ∈ s, 0 < pdf b x := by
    intro b hb x hx
    have hx := hin x hx
    have hpi := Real.pi_pos
    rcases hf with ⟨-, rfl⟩ | ⟨-, rfl⟩
    · unfold chiSquaredPdf
      rw [if_pos hx]
      have := Real.Gamma_pos_of_pos (half_pos hb)
      positivity
    · unfold halfCauchyPdf
      rw [if_neg (not_lt.2 hx.le)]
      positivity
  have hw : way f = .closedStart := by rcases hf with ⟨rfl, -⟩ | ⟨rfl, -⟩ <;> rfl
  obtain ⟨x, hxin, hl, hmin⟩ := run_min k f (Or.inl hw) hm s o d hx h (by
    intro y o1 hn1 hy
    obtain ⟨a, rfl, -⟩ := (hbx y).1 hy
    rcases hf with ⟨rfl, -⟩ | ⟨rfl, -⟩ <;>
      simp [Gives, update, law, lawAttrs, simpleUpdate, simpleFam, Obj.setAll, Obj.set, Function.update])
  obtain ⟨a, rfl, ha⟩ := (hbx x).1 hxin
  have hg : 0 < a := eps_pos''.trans_le ha
  have h2 := hmin [p] ((hbx _).2 ⟨_, rfl, hn⟩)
  simp only [List.map_cons, List.map_nil, hlp _ hg, hlp _ hp.1] at h2
  rw [← log_lik (hpos _ hp.1), ← log_lik (hpos _ hg),
    Real.log_le_log_iff (lik_pos (hpos _ hp.1)) (lik_pos (hpos _ hg))] at h2
  have hu : ∃! b, Best (fun b => 0 < b) pdf s b := by
    rcases hf with ⟨-, rfl⟩ | ⟨-, rfl⟩
    · exact chiSquared_ml_unique s hs hin
    · exact (halfCauchy_ml s hs fun x hx => (hin x hx).le).2 ⟨p, hp⟩
  have he := hu.unique (y₁ := a) ⟨hg, fun q hq => (hp.2 q hq).trans h2⟩ hp
  rw [hl, ← he]
  rfl

/-! ## An example: Wald and the sample 1, 2 -/

open Classical in
/-- an optimiser that finds a minimum whenever there is one -/
noncomputable def exactMin (g : List ℝ → Except Err ℝ) (_ : List (Option ℝ)) (b : Box) : Except Err (List ℝ) :=
  if h : ∃ x, InBox b x ∧ ∀ y, InBox b y → ∀ v w, g x = .ok v → g y = .ok w → v ≤ w then .ok h.choose else .error .valueError

theorem exactMin_finds : FindsMinimum exactMin := by
  intro g s b x h
  unfold exactMin at h
  split_ifs at h with hx
  simp only [Except.ok.injEq] at h
  rw [← h]
  exact hx.choose_spec

private noncomputable def waldKit : Kit where
  est _ _ := .error .valueError
  mom _ _ _ _ _ := .ok [1, 1]
  meanStd _ _ := (0, 0)
  start _ := []
  box f names := (Support.boxOf none names f).map fun p => (p.1, p.2.getD ⊤)
  logpdf _ ps x := match ps with
    | [some a, some b] => Real.log (waldPdf a b x)
    | _ => 0
  leastSquares _ _ := .error .valueError
  minimize := exactMin

example : ∃ d, fitMle waldKit .wald [1, 2] { names := ["mu", "lam"], attr := fun _ => none, params := none, frozen := false } =
    .ok d ∧ law .wald d = [some (3 / 2), some 12] := by
  set o : Obj := { names := ["mu", "lam"], attr := fun _ => none, params := none, frozen := false } with ho
  have hb : OwnBounds waldKit (mlFamily .wald) := by
    intro names
    simp [waldKit, mlFamily, Support.boxOf, Support.pos]
  have hin : ∀ x ∈ ([1, 2] : List ℝ), MlFam.wald.Inside x := by
    intro x hx
    simp only [List.mem_cons, List.not_mem_nil, or_false] at hx
    rcases hx with rfl | rfl <;> simp [MlFam.Inside]
  have hp : MlFam.wald.MostLikely [1, 2] (3 / 2, 12) := by
    have := wald_ml_closed [1, 2] hin ⟨1, by simp, 2, by simp, by norm_num⟩
    norm_num at this
    exact this
  have hn : MlNear .wald (3 / 2) 12 := by
    constructor <;> · unfold eps; norm_num
  have hbx := ml_box .wald waldKit hb
  have hup : ∀ (o1 : Obj), o1.names = o.names → ∀ x, InBox (waldKit.box .wald o.names) x →
      ∃ a b, x = [a, b] ∧ MlNear .wald a b ∧ Refit.negll waldKit .wald o1 [1, 2] x = .ok (-Real.log (lik (waldPdf a b) [1, 2])) := by
    intro o1 hn1 x hx
    obtain ⟨a, b, rfl, hab⟩ := (hbx o.names (by simp) x).1 hx
    refine ⟨a, b, rfl, hab, ?_⟩
    have h3 := ml_update .wald o1 (by rw [hn1]; simp [ho, exactNames, mlFamily]) a b
    have hg := near_good .wald a b hab
    unfold Refit.negll
    cases h4 : update .wald [a, b] o1 with
    | error e =>
      simp only [mlFamily] at h3
      rw [h4] at h3
      exact absurd h3 (by simp [Gives])
    | ok o2 =>
      simp only [mlFamily] at h3
      rw [h4] at h3
      have h3 : law .wald o2 = [some a, some b] := by simpa [Gives] using h3
      simp only [Except.ok_bind', Except.pure_eq, h3, waldKit]
      rw [log_lik (f := waldPdf a b) fun x hx => ml_pdf_pos .wald (by simp) a b x hg (hin x hx)]
  have hex : ∃ d, fitMle waldKit .wald [1, 2] o = .ok d := by
    have h0 := ml_update .wald o (by simp [ho, exactNames, mlFamily]) 1 1
    simp only [mlFamily] at h0
    unfold fitMle
    simp only [way, Refit.optimizeMl]
    have hmom : waldKit.mom .wald none none (mean [1, 2]) (std [1, 2]) = .ok [1, 1] := rfl
    rw [hmom]
    simp only [Except.ok_bind']
    cases h1 : update .wald [1, 1] o with
    | error e => rw [h1] at h0; exact absurd h0 (by simp [Gives])
    | ok o1 =>
      have hn1 := update_names .wald _ _ _ h1
      simp only [Except.ok_bind']
      rw [hn1]
      have h5 : ∃ x, InBox (waldKit.box .wald o.names) x ∧ ∀ y, InBox (waldKit.box .wald o.names) y → ∀ v w,
          Refit.negll waldKit .wald o1 [1, 2] x = .ok v → Refit.negll waldKit .wald o1 [1, 2] y = .ok w → v ≤ w := by
        have hbp := (hbx o.names (by simp) [3 / 2, 12]).2 ⟨_, _, rfl, hn⟩
        refine ⟨[3 / 2, 12], hbp, ?_⟩
        intro y hy v w hv hw
        obtain ⟨a, b, he, hab, h6⟩ := hup o1 hn1 _ hbp
        obtain ⟨a', b', rfl, hab', h7⟩ := hup o1 hn1 _ hy
        simp only [List.cons.injEq, and_true] at he
        rw [← he.1, ← he.2] at h6
        rw [h6] at hv
        rw [h7] at hw
        simp only [Except.ok.injEq] at hv hw
        rw [← hv, ← hw]
        refine neg_le_neg (Real.log_le_log (lik_pos fun x hx => ml_pdf_pos .wald (by simp) a' b' x (near_good _ _ _ hab') (hin x hx)) ?_)
        exact hp.2 a' b' (near_good _ _ _ hab')
      have h6 : waldKit.minimize (Refit.negll waldKit .wald o1 [1, 2]) (o1.params.getD []) (waldKit.box .wald o.names) =
          .ok h5.choose := dif_pos h5
      rw [h6]
      simp only [Except.ok_bind']
      obtain ⟨a, b, he, -, -⟩ := hup o1 hn1 _ h5.choose_spec.1
      rw [he]
      have h7 := ml_update .wald o1 (by rw [hn1]; simp [ho, exactNames, mlFamily]) a b
      simp only [mlFamily] at h7
      cases h8 : update .wald [a, b] o1 with
      | error e => rw [h8] at h7; exact absurd h7 (by simp [Gives])
      | ok d => exact ⟨d, rfl⟩
  obtain ⟨d, hd⟩ := hex
  exact ⟨d, hd, ml_run .wald (by simp) waldKit hb exactMin_finds (fun a b _ x => rfl) [1, 2] (by simp) hin o d
    (by simp [ho, exactNames, mlFamily]) (by simp) hd (3 / 2, 12) hp hn⟩

end Verif.Props
