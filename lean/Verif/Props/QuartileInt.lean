import Verif.Model.QuartileInt
import Verif.Lemmas.ModifierBase
import Mathlib.Tactic

set_option linter.unusedSimpArgs false

/-!
# C85: choosing a family by quartiles
-/

namespace Verif.Props
open Verif Verif.Modifier Verif.QuartileInt MeasureTheory

variable {D : Type}

/-! ## the choice -/

/-- the probability that the law gives to `[a, b]` -/
noncomputable def massBetween (b : Base) (lo hi : ℝ) : ℝ := b.law.real (Set.Icc lo hi)

theorem cdf_eq (b : Base) (x : ℝ) : b.cdf (x : EReal) = b.law.real (Set.Iic x) := by
  unfold Base.cdf
  congr 1
  ext y
  simp

theorem cdf_diff (b : Base) (lo hi : ℝ) (h : lo ≤ hi) :
    b.cdf (hi : EReal) - b.cdf (lo : EReal) = b.law.real (Set.Ioc lo hi) := by
  rw [cdf_eq, cdf_eq, ← measureReal_diff (Set.Iic_subset_Iic.2 h) measurableSet_Iic]
  congr 1
  ext y
  simp [and_comm]

/-- C85: the error by which families are compared is twice the distance, in percent, between 1/2 and the probability of
the interval from the first to the third quartile; for a discrete family if the first quartile is an integer. -/
theorem relError_meaning (m : Methods D) (d : D) (q1 q3 : ℝ) (h : q1 ≤ q3)
    (hc : (m.law d).discrete = true → ∃ k : ℤ, q1 = k) :
    relError m d q1 q3 = 200 * |massBetween (m.law d) q1 q3 - 1 / 2| := by
  unfold relError massBetween
  dsimp only
  have key : (m.law d).cdf (q3 : EReal) - (m.law d).cdf ((if (m.law d).discrete = true then q1 - 1 else q1 : ℝ) : EReal)
      = (m.law d).law.real (Set.Icc q1 q3) := by
    cases hd : (m.law d).discrete with
    | true =>
      rw [if_pos rfl, cdf_diff _ _ _ (by linarith)]
      obtain ⟨k, rfl⟩ := hc hd
      have hint := ((m.law d).discrete_law hd).1
      apply measureReal_congr
      filter_upwards [hint] with y hy
      obtain ⟨j, rfl⟩ := hy
      apply propext
      constructor
      · rintro ⟨h1, h2⟩
        refine ⟨?_, h2⟩
        have : (k : ℝ) - 1 < j := h1
        have h3 : k - 1 < j := by exact_mod_cast this
        exact_mod_cast (by omega : k ≤ j)
      · rintro ⟨h1, h2⟩
        have h1 : (k : ℝ) ≤ j := h1
        exact ⟨show (k : ℝ) - 1 < j by linarith, h2⟩
    | false =>
      rw [if_neg (by simp), cdf_diff _ _ _ h]
      obtain ⟨-, hl⟩ := (m.law d).continuous_law hd
      have hna : (m.law d).law {q1} = 0 := by
        rw [hl]
        exact (withDensity_absolutelyContinuous _ _) Real.volume_singleton
      apply measureReal_congr
      exact (Ioc_ae_eq_Icc' hna)
  rw [key]
  rw [show ((m.law d).law.real (Set.Icc q1 q3) - 0.5) / 0.5 * 100
    = 200 * ((m.law d).law.real (Set.Icc q1 q3) - 1 / 2) by ring, abs_mul, abs_of_pos (by norm_num : (0 : ℝ) < 200)]

/-- the fitted versions of the selected families whose support contains the quartiles -/
def Candidate (m : Methods D) (selected : List D) (q1 q2 q3 : ℝ) (extra : Extra) (f : D) : Prop :=
  ∃ d ∈ selected, ∃ d', prepare m extra d = .ok d' ∧ m.inSupport d' q1 q3 = true ∧ m.fit d' q1 q2 q3 = .ok f

theorem loop_spec (m : Methods D) (q1 q2 q3 : ℝ) (extra : Extra) (ds : List D) (best r : Option (D × ℝ))
    (h : loop m q1 q2 q3 extra ds best = .ok r) :
    ((∀ f, ¬ Candidate m ds q1 q2 q3 extra f) → r = best) ∧
    (∀ f, Candidate m ds q1 q2 q3 extra f → ∃ g e, r = some (g, e) ∧ e ≤ relError m f q1 q3) ∧
    (∀ b, best = some b → ∃ g e, r = some (g, e) ∧ e ≤ b.2) ∧
    (∀ g e, r = some (g, e) → best = some (g, e) ∨ Candidate m ds q1 q2 q3 extra g ∧ e = relError m g q1 q3) := by
  induction ds generalizing best with
  | nil =>
    simp only [loop, Except.ok.injEq] at h
    subst h
    refine ⟨fun _ => rfl, ?_, ?_, fun g e h => .inl h⟩
    · rintro f ⟨d, hd, -⟩; simp at hd
    · rintro ⟨g, e⟩ h; exact ⟨g, e, h, le_rfl⟩
  | cons d ds ih =>
    unfold loop at h
    cases hp : prepare m extra d with
    | error e => rw [hp] at h; simp at h
    | ok d' =>
      rw [hp] at h
      simp only [Except.ok_bind'] at h
      have mono : ∀ f, Candidate m ds q1 q2 q3 extra f → Candidate m (d :: ds) q1 q2 q3 extra f := by
        rintro f ⟨a, ha, hf⟩
        exact ⟨a, List.mem_cons_of_mem _ ha, hf⟩
      by_cases hs : m.inSupport d' q1 q3 = true
      · rw [if_pos hs] at h
        cases hf : m.fit d' q1 q2 q3 with
        | error e => rw [hf] at h; simp at h
        | ok f =>
          rw [hf] at h
          simp only [Except.ok_bind'] at h
          have hcf : Candidate m (d :: ds) q1 q2 q3 extra f := ⟨d, by simp, d', hp, hs, hf⟩
          have split : ∀ g, Candidate m (d :: ds) q1 q2 q3 extra g → g = f ∨ Candidate m ds q1 q2 q3 extra g := by
            rintro g ⟨a, ha, a', h1, h2, h3⟩
            rcases List.mem_cons.1 ha with rfl | ha
            · rw [hp] at h1
              cases h1
              rw [hf] at h3
              cases h3
              exact .inl rfl
            · exact .inr ⟨a, ha, a', h1, h2, h3⟩
          cases best with
          | none =>
            dsimp only at h
            obtain ⟨i1, i2, i3, i4⟩ := ih _ h
            refine ⟨fun h => absurd hcf (h f), ?_, by simp, ?_⟩
            · intro g hg
              rcases split g hg with rfl | hg
              · exact i3 _ rfl
              · exact i2 g hg
            · intro g e hr
              rcases i4 g e hr with h | ⟨h1, h2⟩
              · simp only [Option.some.injEq, Prod.mk.injEq] at h
                obtain ⟨rfl, rfl⟩ := h
                exact .inr ⟨hcf, rfl⟩
              · exact .inr ⟨mono _ h1, h2⟩
          | some b =>
            obtain ⟨b, eb⟩ := b
            dsimp only at h
            obtain ⟨i1, i2, i3, i4⟩ := ih _ h
            by_cases he : relError m f q1 q3 < eb
            · simp only [if_pos he] at i1 i2 i3 i4
              refine ⟨fun h => absurd hcf (h f), ?_, ?_, ?_⟩
              · intro g hg
                rcases split g hg with rfl | hg
                · exact i3 _ rfl
                · exact i2 g hg
              · intro b' hb'
                cases hb'
                obtain ⟨g, e, h1, h2⟩ := i3 _ rfl
                exact ⟨g, e, h1, h2.trans he.le⟩
              · intro g e hr
                rcases i4 g e hr with h | ⟨h1, h2⟩
                · simp only [Option.some.injEq, Prod.mk.injEq] at h
                  obtain ⟨rfl, rfl⟩ := h
                  exact .inr ⟨hcf, rfl⟩
                · exact .inr ⟨mono _ h1, h2⟩
            · simp only [if_neg he] at i1 i2 i3 i4
              refine ⟨fun h => absurd hcf (h f), ?_, ?_, ?_⟩
              · intro g hg
                rcases split g hg with rfl | hg
                · obtain ⟨g', e, h1, h2⟩ := i3 _ rfl
                  exact ⟨g', e, h1, h2.trans (not_lt.1 he)⟩
                · exact i2 g hg
              · intro b' hb'
                exact i3 b' hb'
              · intro g e hr
                rcases i4 g e hr with h | ⟨h1, h2⟩
                · exact .inl h
                · exact .inr ⟨mono _ h1, h2⟩
      · rw [if_neg hs] at h
        have split : ∀ g, Candidate m (d :: ds) q1 q2 q3 extra g → Candidate m ds q1 q2 q3 extra g := by
          rintro g ⟨a, ha, a', h1, h2, h3⟩
          rcases List.mem_cons.1 ha with rfl | ha
          · rw [hp] at h1
            cases h1
            exact absurd h2 hs
          · exact ⟨a, ha, a', h1, h2, h3⟩
        obtain ⟨i1, i2, i3, i4⟩ := ih _ h
        refine ⟨fun h => i1 fun f hf => h f (mono f hf), fun f hf => i2 f (split f hf), i3, ?_⟩
        intro g e hr
        rcases i4 g e hr with h | ⟨h1, h2⟩
        · exact .inl h
        · exact .inr ⟨mono _ h1, h2⟩

/-- C85: unless an error is raised, the result is the fitted version of a selected family with the quartiles in its
support, and no other such family has a probability closer to 1/2 between the first and third quartile; there is no result
exactly if there is no such family. -/
theorem quartile_choice (m : Methods D) (selected : List D) (q1 q2 q3 : ℝ) (extra : Extra) (r : Option D)
    (h : fitToQuartile m selected q1 q2 q3 extra = .ok r) :
    (∀ g, r = some g → Candidate m selected q1 q2 q3 extra g ∧
      ∀ f, Candidate m selected q1 q2 q3 extra f → relError m g q1 q3 ≤ relError m f q1 q3) ∧
    (r = none ↔ ∀ f, ¬ Candidate m selected q1 q2 q3 extra f) := by
  unfold fitToQuartile at h
  cases hl : loop m q1 q2 q3 extra selected none with
  | error e => rw [hl] at h; simp at h
  | ok b =>
    rw [hl] at h
    simp only [Except.ok_bind', Except.pure_eq, Except.ok.injEq] at h
    obtain ⟨i1, i2, -, i4⟩ := loop_spec m q1 q2 q3 extra selected none b hl
    constructor
    · intro g hg
      rw [← h] at hg
      cases b with
      | none => simp at hg
      | some b =>
        obtain ⟨b, e⟩ := b
        simp only [Option.map_some, Option.some.injEq] at hg
        subst hg
        rcases i4 b e rfl with h1 | ⟨h1, h2⟩
        · simp at h1
        · refine ⟨h1, ?_⟩
          intro f hf
          obtain ⟨g', e', h3, h4⟩ := i2 f hf
          simp only [Option.some.injEq, Prod.mk.injEq] at h3
          rw [← h2, h3.2]
          exact h4
    · constructor
      · intro hr f hf
        obtain ⟨g', e', h3, -⟩ := i2 f hf
        rw [h3] at h
        rw [hr] at h
        simp at h
      · intro hf
        rw [i1 hf] at h
        exact h.symm

/-- C85: the fixed values reach the fit: a family named in the extra parameters is fitted after they were set; others as
they come. -/
theorem prepared (m : Methods D) (extra : Extra) (d d' : D) (h : prepare m extra d = .ok d') :
    (extra.lookup (m.name d) = none → d' = d) ∧
    (∀ kw, extra.lookup (m.name d) = some kw → m.name d ≠ "BetaScaled" → m.parametrize d kw = .ok d') ∧
    (∀ kw, extra.lookup (m.name d) = some kw → m.name d = "BetaScaled" →
      ∃ e l u, m.parametrize d kw = .ok e ∧ kw.lookup "lower" = some l ∧ kw.lookup "upper" = some u ∧
        d' = m.setBounds e l u) := by
  unfold prepare at h
  cases hx : extra.lookup (m.name d) with
  | none =>
    rw [hx] at h
    simp only [Except.ok.injEq] at h
    exact ⟨fun _ => h.symm, by simp, by simp⟩
  | some kw =>
    rw [hx] at h
    dsimp only at h
    cases hp : m.parametrize d kw with
    | error e => rw [hp] at h; simp at h
    | ok e =>
      rw [hp] at h
      simp only [Except.ok_bind'] at h
      refine ⟨by simp, ?_, ?_⟩
      · intro kw' hk hn
        cases hk
        rw [if_neg hn] at h
        rw [hp, h]
      · intro kw' hk hn
        cases hk
        rw [if_pos hn] at h
        cases hl : kw.lookup "lower" with
        | none => rw [hl] at h; simp at h
        | some l =>
          cases hu : kw.lookup "upper" with
          | none => rw [hl, hu] at h; simp at h
          | some u =>
            rw [hl, hu] at h
            simp only [Except.ok.injEq] at h
            exact ⟨e, l, u, hp, rfl, rfl, h.symm⟩

/-- C85, what fails: if the extra parameters fix something of BetaScaled but not both bounds, the whole fit fails, even if
other families fit. -/
theorem betascaled_needs_bounds (m : Methods D) (d : D) (ds : List D) (q1 q2 q3 : ℝ) (extra : Extra)
    (kw : List (String × ℝ)) (hn : m.name d = "BetaScaled") (hk : extra.lookup "BetaScaled" = some kw)
    (hb : kw.lookup "lower" = none ∨ kw.lookup "upper" = none) :
    ∃ e, fitToQuartile m (d :: ds) q1 q2 q3 extra = .error e := by
  have : ∃ e, prepare m extra d = .error e := by
    unfold prepare
    rw [hn, hk]
    dsimp only
    cases m.parametrize d kw with
    | error e => exact ⟨e, rfl⟩
    | ok e =>
      simp only [Except.ok_bind', if_true]
      rcases hb with hb | hb
      · rw [hb]; exact ⟨_, rfl⟩
      · rw [hb]; cases kw.lookup "lower" <;> exact ⟨_, rfl⟩
  obtain ⟨e, he⟩ := this
  refine ⟨e, ?_⟩
  unfold fitToQuartile loop
  rw [he]
  rfl

theorem unif_below (a b x : ℝ) (h : a < b) (h1 : a ≤ x) (h2 : x ≤ b) :
    (unif a b h).cdf (x : EReal) = (x - a) / (b - a) := by
  rw [cdf_eq, unif_real _ _ _ _ measurableSet_Iic]
  have : Set.Iic x ∩ Set.Icc a b = Set.Icc a x := by
    ext y
    simp only [Set.mem_inter_iff, Set.mem_Iic, Set.mem_Icc]
    constructor
    · rintro ⟨h3, h4, h5⟩; exact ⟨h4, h3⟩
    · rintro ⟨h3, h4⟩; exact ⟨h4, h3, h4.trans h2⟩
  rw [this, Real.volume_real_Icc_of_le h1]

/-- two uniform laws, on [0, 4] and on [-3/5, 17/5] -/
noncomputable def twoUniforms : Methods Bool where
  name _ := "Uniform"
  parametrize d _ := .ok d
  setBounds d _ _ := d
  inSupport _ _ _ := true
  fit d _ _ _ := .ok d
  law d := if d then unif 0 4 (by norm_num) else unif (-3 / 5) (17 / 5) (by norm_num)

/-- C85, what fails: the median and the separate tails are not compared.  Asked for quartiles 0.4, 1.4, 2.4, the fit
returns the law on [0, 4], whose quartiles are 1, 2, 3, although the other one has exactly the quartiles asked for. -/
theorem median_not_compared :
    fitToQuartile twoUniforms [true, false] (2 / 5) (7 / 5) (12 / 5) [] = .ok (some true) ∧
    ((twoUniforms.law true).cdf ((2 / 5 : ℝ) : EReal) = 1 / 10 ∧ (twoUniforms.law true).cdf ((7 / 5 : ℝ) : EReal) = 7 / 20) ∧
    (twoUniforms.law false).cdf ((2 / 5 : ℝ) : EReal) = 1 / 4 ∧
    (twoUniforms.law false).cdf ((7 / 5 : ℝ) : EReal) = 1 / 2 ∧
    (twoUniforms.law false).cdf ((12 / 5 : ℝ) : EReal) = 3 / 4 := by
  have ht : twoUniforms.law true = unif 0 4 (by norm_num) := rfl
  have hf : twoUniforms.law false = unif (-3 / 5) (17 / 5) (by norm_num) := rfl
  have e1 : relError twoUniforms true (2 / 5) (12 / 5) = 0 := by
    unfold relError
    have : (twoUniforms.law true).discrete = false := rfl
    simp only [this, Bool.false_eq_true, if_false]
    rw [ht, unif_below 0 4 (12 / 5) _ (by norm_num) (by norm_num), unif_below 0 4 (2 / 5) _ (by norm_num) (by norm_num)]
    norm_num
  have e2 : ¬ relError twoUniforms false (2 / 5) (12 / 5) < 0 := by
    unfold relError
    exact not_lt.2 (abs_nonneg _)
  refine ⟨?_, ⟨?_, ?_⟩, ?_, ?_, ?_⟩
  · unfold fitToQuartile
    simp only [loop, prepare, List.lookup_nil, Except.ok_bind']
    have hs : ∀ d, twoUniforms.inSupport d (2 / 5) (12 / 5) = true := fun _ => rfl
    have hfit : ∀ d, twoUniforms.fit d (2 / 5) (7 / 5) (12 / 5) = .ok d := fun _ => rfl
    simp only [hs, if_true, hfit, Except.ok_bind', e1, if_neg e2, Except.pure_eq, Option.map_some]
  · rw [ht, unif_below 0 4 _ _ (by norm_num) (by norm_num)]; norm_num
  · rw [ht, unif_below 0 4 _ _ (by norm_num) (by norm_num)]; norm_num
  · rw [hf, unif_below _ _ _ _ (by norm_num) (by norm_num)]; norm_num
  · rw [hf, unif_below _ _ _ _ (by norm_num) (by norm_num)]; norm_num
  · rw [hf, unif_below _ _ _ _ (by norm_num) (by norm_num)]; norm_num

/-- a fair coin with values 0 and 1 -/
noncomputable def oneCoin : Methods Unit where
  name _ := "Bernoulli"
  parametrize d _ := .ok d
  setBounds d _ _ := d
  inSupport _ _ _ := true
  fit d _ _ _ := .ok d
  law _ := dice 1

/-- C85, what fails: for a first quartile that is not an integer, the next integer below counts as inside. -/
theorem discrete_quartile_counts_below :
    massBetween (oneCoin.law ()) (1 / 2) 1 = 1 / 2 ∧ relError oneCoin () (1 / 2) 1 = 100 := by
  classical
  constructor
  · unfold massBetween
    change (diceLaw 1).real _ = _
    rw [diceLaw_real]
    norm_num [Finset.sum_range_succ]
  · unfold relError
    have : (oneCoin.law ()).discrete = true := rfl
    simp only [this, if_true]
    rw [cdf_eq, cdf_eq]
    change |((diceLaw 1).real _ - (diceLaw 1).real _ - _) / _ * _| = _
    rw [diceLaw_real, diceLaw_real]
    norm_num [Finset.sum_range_succ]

/-! ## the widget -/

/-- `dist` and the axes show the fit to the quartiles, families and parameters in the boxes -/
def ShowsFit (env : QuartileInt.Env D) (s : QuartileInt.State D) : Prop :=
  if s.q1 < s.q2 ∧ s.q2 < s.q3 then
    fitToQuartile env.methods (env.instances s.selected) s.q1 s.q2 s.q3 (env.process s.extra) = .ok s.dist ∧
    s.panel = match s.dist with | none => .domainError | some d => .curve d s.repr
  else s.dist = none ∧ s.panel = .wrongOrder

/-- no fit raises an error -/
def NeverRaises (env : QuartileInt.Env D) : Prop :=
  ∀ names q1 q2 q3 t, ∃ r, fitToQuartile env.methods (env.instances names) q1 q2 q3 (env.process t) = .ok r

theorem matchDist_shows (env : QuartileInt.Env D) (h : NeverRaises env) (s : QuartileInt.State D) :
    ShowsFit env (matchDist env s) := by
  obtain ⟨r, hr⟩ := h s.selected s.q1 s.q2 s.q3 s.extra
  unfold matchDist
  by_cases ho : s.q1 < s.q2 ∧ s.q2 < s.q3
  · rw [if_pos ho, hr]
    cases r with
    | none =>
      unfold ShowsFit
      rw [if_pos (by exact ho)]
      exact ⟨hr, rfl⟩
    | some d =>
      unfold ShowsFit
      rw [if_pos (by exact ho)]
      exact ⟨hr, rfl⟩
  · rw [if_neg ho]
    unfold ShowsFit
    rw [if_neg (by exact ho)]
    exact ⟨rfl, rfl⟩

def IsExtra : QuartileInt.Action → Prop
  | .setExtra _ => True
  | _ => False

theorem act_shows (env : QuartileInt.Env D) (h : NeverRaises env) (s : QuartileInt.State D) (a : QuartileInt.Action)
    (ha : ¬ IsExtra a) (hs : ShowsFit env s) : ShowsFit env (QuartileInt.act env s a) := by
  cases a with
  | release => exact matchDist_shows env h s
  | setExtra t => exact absurd trivial ha
  | setQ1 v =>
    dsimp only [QuartileInt.act]
    split
    · exact hs
    · exact matchDist_shows env h _
  | setQ2 v =>
    dsimp only [QuartileInt.act]
    split
    · exact hs
    · exact matchDist_shows env h _
  | setQ3 v =>
    dsimp only [QuartileInt.act]
    split
    · exact hs
    · exact matchDist_shows env h _
  | setRepr v =>
    dsimp only [QuartileInt.act]
    split
    · exact hs
    · exact matchDist_shows env h _
  | choose v =>
    dsimp only [QuartileInt.act]
    split
    · exact hs
    · exact matchDist_shows env h _

/-- C85: throughout a session the shown curve and `dist` are those of the boxes, if the text with extra parameters is not
changed, or was changed before the last release of a mouse button over the figure.

Partial: fits that raise an error and the text without such a release are excluded, see the next theorem. -/
theorem widget_session_partial (env : QuartileInt.Env D) (h : NeverRaises env) (q1 q2 q3 : ℝ) (names : List String)
    (before after : List QuartileInt.Action) (ha : ∀ a ∈ after, ¬ IsExtra a) :
    ShowsFit env (QuartileInt.acts env (openWidget env q1 q2 q3 names) after) ∧
    ShowsFit env (QuartileInt.acts env (openWidget env q1 q2 q3 names) (before ++ .release :: after)) := by
  have main : ∀ (l : List QuartileInt.Action) (s : QuartileInt.State D), (∀ a ∈ l, ¬ IsExtra a) → ShowsFit env s →
      ShowsFit env (QuartileInt.acts env s l) := by
    intro l
    induction l with
    | nil => exact fun s _ h => h
    | cons a l ih =>
      intro s hl hs
      exact ih _ (fun b hb => hl b (by simp [hb])) (act_shows env h s a (hl a (by simp)) hs)
  refine ⟨main after _ ha (matchDist_shows env h _), ?_⟩
  unfold QuartileInt.acts
  rw [List.foldl_append, List.foldl_cons]
  exact main after _ ha (matchDist_shows env h _)

/-- the value last given to a box -/
def lastGiven {A : Type} (f : QuartileInt.Action → Option A) (opened : A) (l : List QuartileInt.Action) : A :=
  (l.filterMap f).getLastD opened

private theorem lastGiven_snoc {A : Type} (f : QuartileInt.Action → Option A) (o : A) (l : List QuartileInt.Action)
    (a : QuartileInt.Action) : lastGiven f o (l ++ [a]) = (f a).getD (lastGiven f o l) := by
  unfold lastGiven
  rw [List.filterMap_append]
  cases h : f a <;> simp [h]

private theorem matchDist_boxes (env : QuartileInt.Env D) (s : QuartileInt.State D) :
    (matchDist env s).q1 = s.q1 ∧ (matchDist env s).q2 = s.q2 ∧ (matchDist env s).q3 = s.q3 ∧
    (matchDist env s).extra = s.extra ∧ (matchDist env s).repr = s.repr ∧ (matchDist env s).selected = s.selected := by
  unfold matchDist
  split
  · split <;> exact ⟨rfl, rfl, rfl, rfl, rfl, rfl⟩
  · exact ⟨rfl, rfl, rfl, rfl, rfl, rfl⟩

/-- C85: the boxes hold what was last put into them, and before that what the widget was opened with; what fits and redraws do
never changes a box. -/
theorem widget_boxes (env : QuartileInt.Env D) (q1 q2 q3 : ℝ) (names : List String) (l : List QuartileInt.Action) :
    let s := QuartileInt.acts env (openWidget env q1 q2 q3 names) l
    s.q1 = lastGiven (fun | .setQ1 v => some v | _ => none) q1 l ∧
    s.q2 = lastGiven (fun | .setQ2 v => some v | _ => none) q2 l ∧
    s.q3 = lastGiven (fun | .setQ3 v => some v | _ => none) q3 l ∧
    s.extra = lastGiven (fun | .setExtra v => some v | _ => none) "" l ∧
    s.repr = lastGiven (fun | .setRepr v => some v | _ => none) "pdf" l ∧
    s.selected = lastGiven (fun | .choose v => some v | _ => none) names l := by
  induction l using List.reverseRecOn with
  | nil => exact matchDist_boxes env _
  | append_singleton l a ih =>
    dsimp only at ih ⊢
    simp only [lastGiven_snoc]
    unfold QuartileInt.acts at ih ⊢
    rw [List.foldl_append, List.foldl_cons, List.foldl_nil]
    generalize List.foldl (QuartileInt.act env) (openWidget env q1 q2 q3 names) l = s at ih ⊢
    obtain ⟨h1, h2, h3, h4, h5, h6⟩ := ih
    cases a with
    | release =>
      obtain ⟨e1, e2, e3, e4, e5, e6⟩ := matchDist_boxes env s
      simp only [QuartileInt.act, Option.getD_none]
      exact ⟨e1.trans h1, e2.trans h2, e3.trans h3, e4.trans h4, e5.trans h5, e6.trans h6⟩
    | setQ1 v =>
      obtain ⟨e1, e2, e3, e4, e5, e6⟩ := matchDist_boxes env { s with q1 := v }
      simp only [QuartileInt.act, Option.getD_none, Option.getD_some]
      split
      · rename_i hv; exact ⟨hv.symm, h2, h3, h4, h5, h6⟩
      · exact ⟨e1, e2.trans h2, e3.trans h3, e4.trans h4, e5.trans h5, e6.trans h6⟩
    | setQ2 v =>
      obtain ⟨e1, e2, e3, e4, e5, e6⟩ := matchDist_boxes env { s with q2 := v }
      simp only [QuartileInt.act, Option.getD_none, Option.getD_some]
      split
      · rename_i hv; exact ⟨h1, hv.symm, h3, h4, h5, h6⟩
      · exact ⟨e1.trans h1, e2, e3.trans h3, e4.trans h4, e5.trans h5, e6.trans h6⟩
    | setQ3 v =>
      obtain ⟨e1, e2, e3, e4, e5, e6⟩ := matchDist_boxes env { s with q3 := v }
      simp only [QuartileInt.act, Option.getD_none, Option.getD_some]
      split
      · rename_i hv; exact ⟨h1, h2, hv.symm, h4, h5, h6⟩
      · exact ⟨e1.trans h1, e2.trans h2, e3, e4.trans h4, e5.trans h5, e6.trans h6⟩
    | setRepr v =>
      obtain ⟨e1, e2, e3, e4, e5, e6⟩ := matchDist_boxes env { s with repr := v }
      simp only [QuartileInt.act, Option.getD_none, Option.getD_some]
      split
      · rename_i hv; exact ⟨h1, h2, h3, h4, hv.symm, h6⟩
      · exact ⟨e1.trans h1, e2.trans h2, e3.trans h3, e4.trans h4, e5, e6.trans h6⟩
    | setExtra v => exact ⟨h1, h2, h3, rfl, h5, h6⟩
    | choose v =>
      obtain ⟨e1, e2, e3, e4, e5, e6⟩ := matchDist_boxes env { s with selected := v }
      simp only [QuartileInt.act, Option.getD_none, Option.getD_some]
      split
      · rename_i hv; exact ⟨h1, h2, h3, h4, h5, hv.symm⟩
      · exact ⟨e1.trans h1, e2.trans h2, e3.trans h3, e4.trans h4, e5.trans h5, e6⟩

/-- two changes of the second quartile, one of the text -/
example : lastGiven (fun | .setQ2 v => some v | _ => none) (2 : ℝ) [.setQ2 3, .setExtra "sigma=1", .setQ2 4, .release] = 4 := rfl

/-- C85, what fails: new extra parameters have no effect on what is shown. -/
theorem extra_not_observed (env : QuartileInt.Env D) (s : QuartileInt.State D) (t : String) :
    (QuartileInt.act env s (.setExtra t)).dist = s.dist ∧ (QuartileInt.act env s (.setExtra t)).panel = s.panel ∧
    (QuartileInt.act env s (.setExtra t)).extra = t := ⟨rfl, rfl, rfl⟩

/-- a widget in which no fit raises an error -/
example : NeverRaises (⟨oneCoin, fun _ => [()], fun _ => []⟩ : QuartileInt.Env Unit) := by
  intro names q1 q2 q3 t
  exact ⟨_, rfl⟩

end Verif.Props
