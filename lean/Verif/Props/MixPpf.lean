import Verif.Model.MixPpf
import Verif.Props.Grids
import Verif.Props.Survival

set_option linter.unusedSimpArgs false

/-!
# C99: quantiles of mixtures and of hurdle distributions of continuous bases
-/

namespace Verif.Props
open Verif MeasureTheory Verif.Spec Verif.Modifier Verif.Interval Verif.GridMoments Verif.MixPpf

/-- What is trusted about scipy's `brentq` when the function may jump: the answer lies in the bracket, and closer than
`2e-12 + 4 eps |x|` to it lies a point of the bracket where the function has the other sign or is zero. -/
def BrentNear (solve : (ℝ → ℝ) → ℝ → ℝ → ℝ) : Prop :=
  ∀ (f : ℝ → ℝ) (a b : ℝ), a < b → f a ≤ 0 → 0 ≤ f b →
    solve f a b ∈ Set.Icc a b ∧ ∃ y ∈ Set.Icc a b,
      |solve f a b - y| < 2e-12 + 4 * eps * |solve f a b| ∧ f (solve f a b) * f y ≤ 0

/-- the largest point with `q` or less before it -/
def IsUpperQuantile (μ : Measure ℝ) (q : ℝ) (Q : ℝ) : Prop :=
  ∀ x : ℝ, (x < Q → μ.real (Set.Iic x) ≤ q) ∧ (Q < x → q < μ.real (Set.Iic x))

private theorem mix_prob (bs : List Base) (ws : List ℝ) (h : GoodWeights bs.length ws) :
    IsProbabilityMeasure (mixLaw (bs.map Base.law) ws) := by
  have := mixture_proper bs ws h
  constructor
  rw [Measure.real, ENNReal.toReal_eq_one_iff] at this
  exact this

private theorem cdf_limits (μ : Measure ℝ) [IsProbabilityMeasure μ] : CdfLimits fun x => μ.real (Set.Iic x) :=
  ⟨(ProbabilityTheory.tendsto_cdf_atBot μ).congr (ProbabilityTheory.cdf_eq_real μ),
    (ProbabilityTheory.tendsto_cdf_atTop μ).congr (ProbabilityTheory.cdf_eq_real μ)⟩

private theorem mixCdf_eq (bs : List Base) (ws : List ℝ) (h : GoodWeights bs.length ws) :
    mixCdf bs ws = fun x => (mixLaw (bs.map Base.law) ws).real (Set.Iic x) := by
  ext x; exact mixture_cdf bs ws h x

private theorem foldl_min (bs : List Base) (a : EReal) :
    bs.foldl (fun a c => min a c.lo) a ≤ a ∧ ∀ b ∈ bs, bs.foldl (fun a c => min a c.lo) a ≤ b.lo := by
  induction bs generalizing a with
  | nil => simp
  | cons c bs ih =>
    obtain ⟨h1, h2⟩ := ih (min a c.lo)
    refine ⟨h1.trans (min_le_left _ _), ?_⟩
    intro b hb
    rcases List.mem_cons.1 hb with rfl | hb
    · exact h1.trans (min_le_right _ _)
    · exact h2 b hb

private theorem foldl_max (bs : List Base) (a : EReal) :
    a ≤ bs.foldl (fun a c => max a c.hi) a ∧ ∀ b ∈ bs, b.hi ≤ bs.foldl (fun a c => max a c.hi) a := by
  induction bs generalizing a with
  | nil => simp
  | cons c bs ih =>
    obtain ⟨h1, h2⟩ := ih (max a c.hi)
    refine ⟨(le_max_left _ _).trans h1, ?_⟩
    intro b hb
    rcases List.mem_cons.1 hb with rfl | hb
    · exact (le_max_right _ _).trans h1
    · exact h2 b hb

private theorem foldl_min_mem (bs : List Base) (a : EReal) :
    bs.foldl (fun a c => min a c.lo) a = a ∨ ∃ b ∈ bs, bs.foldl (fun a c => min a c.lo) a = b.lo := by
  induction bs generalizing a with
  | nil => simp
  | cons c bs ih =>
    rcases ih (min a c.lo) with h | ⟨b, hb, h⟩
    · rcases min_choice a c.lo with h' | h'
      · left; rw [List.foldl_cons, h, h']
      · right; exact ⟨c, List.mem_cons_self, by rw [List.foldl_cons, h, h']⟩
    · right; exact ⟨b, List.mem_cons_of_mem _ hb, by rw [List.foldl_cons, h]⟩

private theorem foldl_max_mem (bs : List Base) (a : EReal) :
    bs.foldl (fun a c => max a c.hi) a = a ∨ ∃ b ∈ bs, bs.foldl (fun a c => max a c.hi) a = b.hi := by
  induction bs generalizing a with
  | nil => simp
  | cons c bs ih =>
    rcases ih (max a c.hi) with h | ⟨b, hb, h⟩
    · rcases max_choice a c.hi with h' | h'
      · left; rw [List.foldl_cons, h, h']
      · right; exact ⟨c, List.mem_cons_self, by rw [List.foldl_cons, h, h']⟩
    · right; exact ⟨b, List.mem_cons_of_mem _ hb, by rw [List.foldl_cons, h]⟩

/-- the support of a mixture: the smallest lower and the largest upper end -/
private theorem mix_support (bs : List Base) (hne : bs ≠ []) : ∃ lo hi, mixSupport bs = .ok (lo, hi) ∧
    (∀ b ∈ bs, lo ≤ b.lo) ∧ (∀ b ∈ bs, b.hi ≤ hi) ∧ (∃ b ∈ bs, lo = b.lo) ∧ ∃ b ∈ bs, hi = b.hi := by
  match bs, hne with
  | b :: bs, _ =>
    refine ⟨_, _, rfl, ?_, ?_, ?_, ?_⟩
    · intro c hc
      rcases List.mem_cons.1 hc with rfl | hc
      · exact (foldl_min bs c.lo).1
      · exact (foldl_min bs b.lo).2 c hc
    · intro c hc
      rcases List.mem_cons.1 hc with rfl | hc
      · exact (foldl_max bs c.hi).1
      · exact (foldl_max bs b.hi).2 c hc
    · rcases foldl_min_mem bs b.lo with h | ⟨c, hc, h⟩
      · exact ⟨b, List.mem_cons_self, h⟩
      · exact ⟨c, List.mem_cons_of_mem _ hc, h⟩
    · rcases foldl_max_mem bs b.hi with h | ⟨c, hc, h⟩
      · exact ⟨b, List.mem_cons_self, h⟩
      · exact ⟨c, List.mem_cons_of_mem _ hc, h⟩

private theorem hi_ne_bot (b : Base) : b.hi ≠ ⊥ := by
  intro h
  have : ∀ᵐ (y : ℝ) ∂b.law, False := by
    filter_upwards [b.in_support] with y hy
    rw [h, le_bot_iff] at hy
    exact EReal.coe_ne_bot y hy.2
  have h1 := measure_univ (μ := b.law)
  rw [ae_iff] at this
  simp at this

private theorem ne_nil_of_good {bs : List Base} {ws : List ℝ} (h : GoodWeights bs.length ws) : bs ≠ [] := by
  rintro rfl
  have h1 := h.len
  have h2 := h.pos
  rw [List.length_nil, List.length_eq_zero_iff] at h1
  rw [h1] at h2
  simp at h2

/-- one level given as a float -/
private theorem ppf_single (solve : (ℝ → ℝ) → ℝ → ℝ → ℝ) (bs : List Base) (ws : List ℝ) (q : ℝ) (lo hi : EReal)
    (hs : mixSupport bs = .ok (lo, hi)) (r : Except Err Out) :
    MixPpf.ppf solve bs ws .float [q] r ↔ ∃ v, level solve bs ws lo hi q v ∧ r = v.map Out.number := by
  unfold MixPpf.ppf
  rw [hs]
  constructor
  · rintro ⟨s, ⟨v, hv, hr⟩, rfl⟩
    refine ⟨v, hv, ?_⟩
    match v, hr with
    | .error e, hr =>
      have : s = .error e := hr
      rw [this]; rfl
    | .ok y, hr =>
      obtain ⟨ys, hys, rfl⟩ := (hr : ∃ ys, levels solve bs ws lo hi .float [] ys ∧ s = ys.map (y :: ·))
      have : ys = .ok [] := hys
      rw [this]; rfl
  · rintro ⟨v, hv, rfl⟩
    match v, hv with
    | .error e, hv => exact ⟨.error e, ⟨.error e, hv, rfl⟩, rfl⟩
    | .ok y, hv => exact ⟨.ok [y], ⟨.ok y, hv, .ok [], rfl, rfl⟩, rfl⟩

/-- C99: for every level strictly between 0 and 1 the search for the quantile of a mixture ends with a number, and it is
as close as the root finder allows to a point between the lower and the upper quantile of the mixture law. -/
theorem mixture_ppf_between (solve : (ℝ → ℝ) → ℝ → ℝ → ℝ) (hs : BrentNear solve) (bs : List Base) (ws : List ℝ)
    (h : GoodWeights bs.length ws) (q : ℝ) (h0 : 0 < q) (h1 : q < 1) (Q Q' : ℝ)
    (hQ : IsQuantile (mixLaw (bs.map Base.law) ws) q Q) (hQ' : IsUpperQuantile (mixLaw (bs.map Base.law) ws) q Q') :
    (∃ r, MixPpf.ppf solve bs ws .float [q] r) ∧ ∀ r, MixPpf.ppf solve bs ws .float [q] r →
      ∃ x z : ℝ, r = .ok (.number (some (x : EReal))) ∧ Q ≤ z ∧ z ≤ Q' ∧ |x - z| < 2e-12 + 4 * eps * |x| := by
  have := mix_prob bs ws h
  have hF := mixCdf_eq bs ws h
  set μ := mixLaw (bs.map Base.law) ws with hμ
  obtain ⟨lo, hi, hsup, -, -, -, b, hb, hhi⟩ := mix_support bs (ne_nil_of_good h)
  have hbot : hi ≠ ⊥ := by rw [hhi]; exact hi_ne_bot b
  obtain ⟨⟨r, hr⟩, hall⟩ := ppf_bracket solve (fun x => μ.real (Set.Iic x)) (cdf_limits μ) hi hbot q h0 h1
  have e : ∀ v, level solve bs ws lo hi q v ↔ ∃ s, ppfSingle solve (fun x => μ.real (Set.Iic x)) hi q s ∧
      v = s.map fun x => some ((x : ℝ) : EReal) := by
    intro v
    unfold level findPpf
    rw [hF, if_neg (by linarith), if_neg (by linarith), if_neg (by linarith), if_neg (by linarith)]
    simp
  refine ⟨⟨_, (ppf_single solve bs ws q lo hi hsup _).2 ⟨_, (e _).2 ⟨r, hr, rfl⟩, rfl⟩⟩, ?_⟩
  intro r' hr'
  obtain ⟨v, hv, rfl⟩ := (ppf_single solve bs ws q lo hi hsup _).1 hr'
  obtain ⟨s, hs', rfl⟩ := (e _).1 hv
  obtain ⟨L, R, hLR, hL, hR, rfl⟩ := hall s hs'
  obtain ⟨-, y, -, hnear, hsign⟩ := hs (fun x => μ.real (Set.Iic x) - q) L R hLR (by simp; linarith) (by simp; linarith)
  set x := solve (fun x => μ.real (Set.Iic x) - q) L R with hx
  have mono : ∀ {s t : ℝ}, s ≤ t → μ.real (Set.Iic s) ≤ μ.real (Set.Iic t) := fun hst =>
    measureReal_mono (Set.Iic_subset_Iic.2 hst)
  have hQQ : Q ≤ Q' := by
    by_contra hlt
    push Not at hlt
    have a1 := (hQ' ((Q + Q') / 2)).2 (by linarith)
    have := (hQ ((Q + Q') / 2)).2 a1.le
    have : Q ≤ (Q + Q') / 2 := by exact_mod_cast this
    linarith
  -- a point with at most `q` before it is at most the upper quantile, one with at least `q` is at least the lower
  have up : ∀ u : ℝ, μ.real (Set.Iic u) ≤ q → u ≤ Q' := by
    intro u hu
    by_contra hlt
    push Not at hlt
    have := (hQ' u).2 hlt
    linarith
  have low : ∀ v : ℝ, q ≤ μ.real (Set.Iic v) → Q ≤ v := by
    intro v hv
    exact_mod_cast (hQ v).2 hv
  have key : ∀ u v : ℝ, μ.real (Set.Iic u) ≤ q → q ≤ μ.real (Set.Iic v) →
      ∃ z, Q ≤ z ∧ z ≤ Q' ∧ (z ∈ Set.uIcc u v) := by
    intro u v hu hv
    have a := up u hu
    have c := low v hv
    rcases le_total Q u with h2 | h2
    · exact ⟨u, h2, a, Set.left_mem_uIcc⟩
    · exact ⟨Q, le_rfl, hQQ, Set.mem_uIcc.2 (Or.inl ⟨h2, c⟩)⟩
  obtain ⟨z, z1, z2, z3⟩ : ∃ z, Q ≤ z ∧ z ≤ Q' ∧ z ∈ Set.uIcc x y := by
    rcases le_total (μ.real (Set.Iic x)) q with h2 | h2
    · rcases le_total q (μ.real (Set.Iic y)) with h3 | h3
      · exact key x y h2 h3
      · rcases eq_or_lt_of_le h2 with h4 | h4
        · exact key x x h2 h4.ge |>.imp fun z hz => ⟨hz.1, hz.2.1, by
            have := hz.2.2
            rw [Set.uIcc_self, Set.mem_singleton_iff] at this
            rw [this]; exact Set.left_mem_uIcc⟩
        · have h5 : μ.real (Set.Iic y) = q := by nlinarith
          exact key x y h2 h5.ge
    · rcases le_total (μ.real (Set.Iic y)) q with h3 | h3
      · exact (key y x h3 h2).imp fun z hz => ⟨hz.1, hz.2.1, by rw [Set.uIcc_comm]; exact hz.2.2⟩
      · rcases eq_or_lt_of_le h2 with h4 | h4
        · exact key x x h4.ge h2 |>.imp fun z hz => ⟨hz.1, hz.2.1, by
            have := hz.2.2
            rw [Set.uIcc_self, Set.mem_singleton_iff] at this
            rw [this]; exact Set.left_mem_uIcc⟩
        · have h5 : μ.real (Set.Iic y) = q := by nlinarith
          exact (key y x h5.le h2).imp fun z hz => ⟨hz.1, hz.2.1, by rw [Set.uIcc_comm]; exact hz.2.2⟩
  refine ⟨x, z, rfl, z1, z2, lt_of_le_of_lt ?_ hnear⟩
  rw [abs_sub_comm, abs_sub_comm x y]
  exact Set.abs_sub_left_of_mem_uIcc z3

/-- C99: if the quantile is unique, the answer is as close to it as the root finder allows, whether the components are
discrete or continuous. -/
theorem mixture_ppf_near (solve : (ℝ → ℝ) → ℝ → ℝ → ℝ) (hs : BrentNear solve) (bs : List Base) (ws : List ℝ)
    (h : GoodWeights bs.length ws) (q : ℝ) (h0 : 0 < q) (h1 : q < 1) (Q : ℝ)
    (hQ : IsQuantile (mixLaw (bs.map Base.law) ws) q Q)
    (huniq : ∀ x, Q < x → (mixLaw (bs.map Base.law) ws).real (Set.Iic x) ≠ q)
    (r : Except Err Out) (hr : MixPpf.ppf solve bs ws .float [q] r) :
    ∃ x : ℝ, r = .ok (.number (some (x : EReal))) ∧ |x - Q| < 2e-12 + 4 * eps * |x| := by
  have := mix_prob bs ws h
  have hQ' : IsUpperQuantile (mixLaw (bs.map Base.law) ws) q Q := by
    intro x
    constructor
    · intro hx
      by_contra hlt
      push Not at hlt
      have := (hQ x).2 hlt.le
      have : Q ≤ x := by exact_mod_cast this
      linarith
    · intro hx
      exact lt_of_le_of_ne ((hQ x).1 (by exact_mod_cast hx.le)) (Ne.symm (huniq x hx))
  obtain ⟨x, z, e, h2, h3, h4⟩ := (mixture_ppf_between solve hs bs ws h q h0 h1 Q Q hQ hQ').2 r hr
  exact ⟨x, e, by rwa [le_antisymm h3 h2] at h4⟩

/-- C99: at level 0 the lowest end of all components, one less for discrete ones; at level 1 the highest end of all
components; NaN outside [0, 1]. -/
theorem mixture_ppf_edges (solve : (ℝ → ℝ) → ℝ → ℝ → ℝ) (bs : List Base) (hne : bs ≠ []) (ws : List ℝ) :
    ∃ lo hi, (∀ b ∈ bs, lo ≤ b.lo) ∧ (∀ b ∈ bs, b.hi ≤ hi) ∧ (∃ b ∈ bs, lo = b.lo) ∧ (∃ b ∈ bs, hi = b.hi) ∧
      (∀ r, MixPpf.ppf solve bs ws .float [0] r ↔
        r = .ok (.number (some (if ∀ b ∈ bs, b.discrete = true then lo - 1 else lo)))) ∧
      (∀ r, MixPpf.ppf solve bs ws .float [1] r ↔ r = .ok (.number (some hi))) ∧
      ∀ q r, q < 0 ∨ 1 < q → (MixPpf.ppf solve bs ws .float [q] r ↔ r = .ok (.number none)) := by
  classical
  obtain ⟨lo, hi, hsup, a, b, c, d⟩ := mix_support bs hne
  refine ⟨lo, hi, a, b, c, d, ?_, ?_, ?_⟩
  · intro r
    rw [ppf_single solve bs ws 0 lo hi hsup]
    unfold level
    by_cases hall : ∀ b ∈ bs, b.discrete = true
    · rw [if_pos hall, List.all_eq_true.2 (fun b hb => hall b hb)]
      simp only [(findPpf_edges solve (mixCdf bs ws) true false lo hi 0 _).2.2.1, exists_eq_left]
      rfl
    · have : bs.all Base.discrete = false := by
        rw [← Bool.not_eq_true, List.all_eq_true]; exact hall
      rw [if_neg hall, this]
      simp only [(findPpf_edges solve (mixCdf bs ws) true false lo hi 0 _).2.1, exists_eq_left]
      rfl
  · intro r
    rw [ppf_single solve bs ws 1 lo hi hsup]
    unfold level
    simp only [(findPpf_edges solve (mixCdf bs ws) _ false lo hi 0 _).2.2.2, exists_eq_left]
    rfl
  · intro q r hq
    rw [ppf_single solve bs ws q lo hi hsup]
    unfold level
    simp only [(findPpf_edges solve (mixCdf bs ws) _ false lo hi q _).1 hq, exists_eq_left]
    rfl

private theorem mix_no_atoms (bs : List Base) (ws : List ℝ) (h : GoodWeights bs.length ws)
    (hd : ∀ b ∈ bs, b.discrete = false) : Continuous fun x => (mixLaw (bs.map Base.law) ws).real (Set.Iic x) := by
  have := mix_prob bs ws h
  have hna : ∀ x, mixLaw (bs.map Base.law) ws {x} = 0 := by
    intro x
    rw [(mixture_density bs ws h hd).2]
    exact withDensity_absolutelyContinuous _ _ (by simp)
  set μ := mixLaw (bs.map Base.law) ws
  have e : (fun x => μ.real (Set.Iic x)) = ProbabilityTheory.cdf μ := by
    ext x; rw [ProbabilityTheory.cdf_eq_real]
  rw [e, continuous_iff_continuousAt]
  intro x
  rw [continuousAt_iff_continuous_left'_right']
  constructor
  · have h1 := (ProbabilityTheory.cdf μ).measure_singleton x
    rw [ProbabilityTheory.measure_cdf, hna] at h1
    have h2 := Monotone.leftLim_le (ProbabilityTheory.cdf μ).mono (le_refl x)
    have h3 := ENNReal.ofReal_eq_zero.1 h1.symm
    exact (Monotone.continuousWithinAt_Iio_iff_leftLim_eq (ProbabilityTheory.cdf μ).mono).2 (by linarith)
  · exact ((ProbabilityTheory.cdf μ).right_continuous x).mono Set.Ioi_subset_Ici_self

/-- C99: for continuous components, an exact root finder and a cdf without flat parts, `ppf` is the quantile of the
mixture law, `isf` the point beyond which the given probability lies, and the median has half of the mass on each
side. -/
theorem mixture_ppf_continuous (solve : (ℝ → ℝ) → ℝ → ℝ → ℝ) (hs : FindsRoots solve) (bs : List Base) (ws : List ℝ)
    (h : GoodWeights bs.length ws) (hd : ∀ b ∈ bs, b.discrete = false)
    (hstrict : ∀ x y, x < y → 0 < (mixLaw (bs.map Base.law) ws).real (Set.Iic x) →
      (mixLaw (bs.map Base.law) ws).real (Set.Iic x) < 1 →
      (mixLaw (bs.map Base.law) ws).real (Set.Iic x) < (mixLaw (bs.map Base.law) ws).real (Set.Iic y)) :
    (∀ q, 0 < q → q < 1 → (∃ r, MixPpf.ppf solve bs ws .float [q] r) ∧ ∀ r, MixPpf.ppf solve bs ws .float [q] r →
      ∃ x : ℝ, r = .ok (.number (some (x : EReal))) ∧ IsQuantile (mixLaw (bs.map Base.law) ws) q x) ∧
    (∀ q, 0 < q → q < 1 → (∃ r, MixPpf.isf solve bs ws .float [q] r) ∧ ∀ r, MixPpf.isf solve bs ws .float [q] r →
      ∃ x : ℝ, r = .ok (.number (some (x : EReal))) ∧ IsTailQuantile (mixLaw (bs.map Base.law) ws) q x) ∧
    (∃ r, MixPpf.median solve bs ws r) ∧ ∀ r, MixPpf.median solve bs ws r →
      ∃ x : ℝ, r = .ok (.number (some (x : EReal))) ∧ (mixLaw (bs.map Base.law) ws).real (Set.Iic x) = 1 / 2 ∧
        (mixLaw (bs.map Base.law) ws).real (Set.Ioi x) = 1 / 2 := by
  have := mix_prob bs ws h
  have hcont := mix_no_atoms bs ws h hd
  have hF := mixCdf_eq bs ws h
  obtain ⟨lo, hi, hsup, -, -, -, b, hb, hhi⟩ := mix_support bs (ne_nil_of_good h)
  have hbot : hi ≠ ⊥ := by rw [hhi]; exact hi_ne_bot b
  have main : ∀ q, 0 < q → q < 1 → (∃ r, MixPpf.ppf solve bs ws .float [q] r) ∧
      ∀ r, MixPpf.ppf solve bs ws .float [q] r → ∃ x : ℝ, r = .ok (.number (some (x : EReal))) ∧
        (mixLaw (bs.map Base.law) ws).real (Set.Iic x) = q ∧ IsQuantile (mixLaw (bs.map Base.law) ws) q x := by
    intro q h0 h1
    obtain ⟨⟨r, hr⟩, hv⟩ := findPpf_inverse solve hs _ (cdf_limits (mixLaw (bs.map Base.law) ws)) hcont
      (bs.all Base.discrete) lo hi hbot q h0 h1
    have e : ∀ v, level solve bs ws lo hi q v ↔ findPpf solve (fun x => (mixLaw (bs.map Base.law) ws).real (Set.Iic x))
        (bs.all Base.discrete) false lo hi q v := by
      intro v; unfold level; rw [hF]
    refine ⟨⟨_, (ppf_single solve bs ws q lo hi hsup _).2 ⟨r, (e r).2 hr, rfl⟩⟩, ?_⟩
    intro r' hr'
    obtain ⟨v, hv', rfl⟩ := (ppf_single solve bs ws q lo hi hsup _).1 hr'
    obtain ⟨x, rfl, hx⟩ := hv v ((e v).1 hv')
    obtain ⟨x', hx', hx''⟩ := findPpf_quantile solve hs _ hcont hstrict (bs.all Base.discrete) lo hi hbot q h0 h1 _
      ((e _).1 hv')
    have : x = x' := by
      have := Except.ok.inj hx'
      exact_mod_cast Option.some.inj this
    exact ⟨x, rfl, hx, by rw [this]; exact hx''⟩
  refine ⟨fun q h0 h1 => ⟨(main q h0 h1).1, fun r hr => ?_⟩, fun q h0 h1 => ?_, (main 0.5 (by norm_num) (by norm_num)).1,
    fun r hr => ?_⟩
  · obtain ⟨x, e, -, hx⟩ := (main q h0 h1).2 r hr
    exact ⟨x, e, hx⟩
  · have m := main (1 - q) (by linarith) (by linarith)
    refine ⟨m.1, fun r hr => ?_⟩
    obtain ⟨x, e, -, hx⟩ := m.2 r hr
    exact ⟨x, e, tail_of_quantile _ q _ hx⟩
  · obtain ⟨x, e, hx, -⟩ := (main 0.5 (by norm_num) (by norm_num)).2 r hr
    refine ⟨x, e, by rw [hx]; norm_num, ?_⟩
    rw [← Set.compl_Iic, probReal_compl_eq_one_sub measurableSet_Iic, hx]
    norm_num

/-- C99, what fails: a component of weight zero still counts for the highest value.  The mixture of a die with the values
0, 1 and one with the values 0 to 5, with weights 1 and 0, reports `ppf(1) = 5`, and 1 is already certain not to be
exceeded. -/
theorem mixture_ppf_zero_weight (solve : (ℝ → ℝ) → ℝ → ℝ → ℝ) (r : Except Err Out) :
    GoodWeights [dice 1, dice 5].length [1, 0] ∧
    (MixPpf.ppf solve [dice 1, dice 5] [1, 0] .float [1] r ↔ r = .ok (.number (some (5 : ℝ)))) ∧
    (mixLaw ([dice 1, dice 5].map Base.law) [1, 0]).real (Set.Iic 1) = 1 := by
  classical
  have hg : GoodWeights [dice 1, dice 5].length [1, 0] := ⟨rfl, by simp, by norm_num⟩
  refine ⟨hg, ?_, ?_⟩
  · have hs : mixSupport [dice 1, dice 5] = .ok ((0 : EReal), ((5 : ℝ) : EReal)) := by
      have e1 : (dice 1).lo = 0 := rfl
      have e2 : (dice 5).lo = 0 := rfl
      have e3 : (dice 1).hi = (((1 : ℕ) : ℝ) : EReal) := rfl
      have e4 : (dice 5).hi = (((5 : ℕ) : ℝ) : EReal) := rfl
      simp only [mixSupport, List.foldl_cons, List.foldl_nil, e1, e2, e3, e4, min_self]
      rw [max_eq_right (by exact_mod_cast (by norm_num : (1 : ℝ) ≤ 5))]
      norm_num
    rw [ppf_single solve _ _ 1 _ _ hs]
    unfold level
    simp only [(findPpf_edges solve _ _ false _ _ 0 _).2.2.2, exists_eq_left]
    rfl
  · rw [← mixture_cdf _ _ hg]
    unfold mixCdf mixWeights
    simp only [List.map_cons, List.map_nil, List.sum_cons, List.sum_nil, List.zipWith_cons_cons, List.zipWith_nil_left]
    have e : (dice 1).cdf ((1 : ℝ) : EReal) = 1 := by
      rw [Base.cdf_coe]
      show (diceLaw 1).real _ = 1
      rw [diceLaw_real]
      norm_num [Finset.sum_range_succ]
    rw [e]
    norm_num

/-- C99: one level gives a number, even if it is given as a list of one; any other number of levels an array with as
many entries. -/
theorem mixture_ppf_shape (solve : (ℝ → ℝ) → ℝ → ℝ → ℝ) (bs : List Base) (ws : List ℝ) (t : DType) (qs : List ℝ)
    (o : Out) (h : MixPpf.ppf solve bs ws t qs (.ok o)) :
    (qs.length = 1 → ∃ v, o = .number v) ∧ (qs.length ≠ 1 → ∃ vs, o = .array vs ∧ vs.length = qs.length) := by
  have len : ∀ (qs : List ℝ) lo hi s, levels solve bs ws lo hi t qs s → ∀ vs, s = .ok vs → vs.length = qs.length := by
    intro qs lo hi
    induction qs with
    | nil =>
      intro s hs vs e
      have hs : s = .ok [] := hs
      rw [hs] at e
      rw [← Except.ok.inj e]; rfl
    | cons q qs ih =>
      rintro s ⟨v, -, hv⟩ vs e
      cases hy : v.bind (store t) with
      | error er =>
        rw [hy] at hv
        have hv : s = .error er := hv
        rw [hv] at e; cases e
      | ok y =>
        rw [hy] at hv
        obtain ⟨ys, h1, h2⟩ := (hv : ∃ ys, levels solve bs ws lo hi t qs ys ∧ s = ys.map (y :: ·))
        cases ys with
        | error er => rw [h2] at e; cases e
        | ok l =>
          rw [h2] at e
          rw [← Except.ok.inj e, List.length_cons, List.length_cons, ih _ h1 l rfl]
  unfold MixPpf.ppf at h
  cases hs : mixSupport bs with
  | error e => rw [hs] at h; cases (h : Except.ok o = .error e)
  | ok p =>
    obtain ⟨lo, hi⟩ := p
    rw [hs] at h
    obtain ⟨s, h1, h2⟩ := (h : ∃ s, levels solve bs ws lo hi t qs s ∧ Except.ok o = s.map pack)
    cases s with
    | error e => cases h2
    | ok vs =>
      have h3 : o = pack vs := Except.ok.inj h2
      have h4 := len qs lo hi _ h1 vs rfl
      rw [← h4]
      match vs with
      | [] => exact ⟨fun h => by simp at h, fun _ => ⟨_, h3, rfl⟩⟩
      | [v] => exact ⟨fun _ => ⟨v, h3⟩, fun h => absurd rfl h⟩
      | v :: w :: l => exact ⟨fun h => by simp at h, fun _ => ⟨_, h3, rfl⟩⟩

/-- C99, what fails: levels given as integers.  `ppf(1)` raises OverflowError if a component is unbounded above, and
cuts the highest end of the support towards zero otherwise; integers outside [0, 1] raise ValueError instead of giving
NaN. -/
theorem mixture_ppf_integers (solve : (ℝ → ℝ) → ℝ → ℝ → ℝ) (bs : List Base) (ws : List ℝ) :
    ((∃ b ∈ bs, b.hi = ⊤) → ∀ r, MixPpf.ppf solve bs ws .int [1] r ↔ r = .error .overflow) ∧
    ((∃ b ∈ bs, b.lo = ⊥) → ∀ r, MixPpf.ppf solve bs ws .int [0] r ↔ r = .error .overflow) ∧
    (∀ c : ℝ, (∀ b ∈ bs, b.hi ≤ (c : EReal)) → (∃ b ∈ bs, b.hi = (c : EReal)) →
      ∀ r, MixPpf.ppf solve bs ws .int [1] r → ∃ k : ℤ, r = .ok (.number (some ((k : ℝ) : EReal))) ∧
        |(k : ℝ)| ≤ |c| ∧ |c - k| < 1 ∧ 0 ≤ k * c) ∧
    (bs ≠ [] → ∀ q, q < 0 ∨ 1 < q → ∀ r, MixPpf.ppf solve bs ws .int [q] r ↔ r = .error .valueError) := by
  -- one level whose value is known
  have one : ∀ (q : ℝ) (lo hi : EReal) (v : Option EReal), mixSupport bs = .ok (lo, hi) →
      (∀ s, level solve bs ws lo hi q s ↔ s = .ok v) → ∀ r, MixPpf.ppf solve bs ws .int [q] r ↔
        r = (store .int v).map Out.number := by
    intro q lo hi v hs hl r
    unfold MixPpf.ppf
    rw [hs]
    constructor
    · rintro ⟨s, ⟨w, hw, hr⟩, rfl⟩
      rw [(hl w).1 hw] at hr
      cases hy : store .int v with
      | error e =>
        have hr : match store .int v with
          | .error e => s = .error e
          | .ok y => ∃ ys, levels solve bs ws lo hi .int [] ys ∧ s = ys.map (y :: ·) := hr
        rw [hy] at hr
        have hr : s = .error e := hr
        rw [hr]; rfl
      | ok y =>
        have hr : match store .int v with
          | .error e => s = .error e
          | .ok y => ∃ ys, levels solve bs ws lo hi .int [] ys ∧ s = ys.map (y :: ·) := hr
        rw [hy] at hr
        obtain ⟨ys, h1, h2⟩ := (hr : ∃ ys, levels solve bs ws lo hi .int [] ys ∧ s = ys.map (y :: ·))
        have h1 : ys = .ok [] := h1
        rw [h2, h1]; rfl
    · intro hr
      cases hy : store .int v with
      | error e =>
        refine ⟨.error e, ⟨.ok v, (hl _).2 rfl, ?_⟩, by rw [hr, hy]; rfl⟩
        show match store .int v with
          | .error e' => Except.error e = .error e'
          | .ok y => ∃ ys, levels solve bs ws lo hi .int [] ys ∧ Except.error e = ys.map (y :: ·)
        rw [hy]
      | ok y =>
        refine ⟨.ok [y], ⟨.ok v, (hl _).2 rfl, ?_⟩, by rw [hr, hy]; rfl⟩
        show match store .int v with
          | .error e' => Except.ok [y] = .error e'
          | .ok y' => ∃ ys, levels solve bs ws lo hi .int [] ys ∧ Except.ok [y] = ys.map (y' :: ·)
        rw [hy]
        exact ⟨.ok [], rfl, rfl⟩
  have sup : bs ≠ [] → _ := mix_support bs
  refine ⟨?_, ?_, ?_, ?_⟩
  · rintro ⟨b, hb, hbt⟩ r
    obtain ⟨lo, hi, hs, -, h2, -, -⟩ := sup (List.ne_nil_of_mem hb)
    have : hi = ⊤ := top_le_iff.1 (hbt ▸ h2 b hb)
    rw [one 1 lo hi (some hi) hs (fun s => (findPpf_edges solve _ _ false lo hi 0 s).2.2.2) r, this]
    simp [store, Except.map]
  · rintro ⟨b, hb, hbt⟩ r
    obtain ⟨lo, hi, hs, h2, -, -, -⟩ := sup (List.ne_nil_of_mem hb)
    have : lo = ⊥ := le_bot_iff.1 (hbt ▸ h2 b hb)
    cases hall : bs.all Base.discrete with
    | false =>
      rw [one 0 lo hi (some lo) hs (fun s => by
        unfold level; rw [hall]; exact (findPpf_edges solve _ false false lo hi 0 s).2.1) r, this]
      simp [store, Except.map]
    | true =>
      rw [one 0 lo hi (some (lo - 1)) hs (fun s => by
        unfold level; rw [hall]; exact (findPpf_edges solve _ false false lo hi 0 s).2.2.1) r, this]
      have : (⊥ : EReal) - 1 = ⊥ := by
        rw [sub_eq_add_neg, EReal.bot_add]
      rw [this]
      simp [store, Except.map]
  · rintro c hc ⟨b, hb, hbt⟩ r
    obtain ⟨lo, hi, hs, -, h2, -, b', hb', h3⟩ := sup (List.ne_nil_of_mem hb)
    have : hi = (c : EReal) := le_antisymm (h3 ▸ hc b' hb') (hbt ▸ h2 b hb)
    rw [one 1 lo hi (some hi) hs (fun s => (findPpf_edges solve _ _ false lo hi 0 s).2.2.2) r, this]
    by_cases hc0 : 0 ≤ c
    · simp only [store, Except.map, EReal.toReal_coe, hc0, if_true, EReal.coe_ne_top, EReal.coe_ne_bot, or_self, if_false]
      rintro rfl
      have h0 : (0 : ℝ) ≤ (⌊c⌋ : ℤ) := by exact_mod_cast Int.floor_nonneg.2 hc0
      refine ⟨⌊c⌋, rfl, ?_, ?_, mul_nonneg h0 hc0⟩
      · rw [abs_of_nonneg hc0, abs_of_nonneg h0]; exact Int.floor_le c
      · rw [abs_of_nonneg (by linarith [Int.floor_le c])]; linarith [Int.lt_floor_add_one c]
    · simp only [store, Except.map, EReal.toReal_coe, hc0, EReal.coe_ne_top, EReal.coe_ne_bot, or_self, if_false]
      rintro rfl
      push Not at hc0
      have h0 : ((⌈c⌉ : ℤ) : ℝ) ≤ 0 := by exact_mod_cast Int.ceil_le.2 (by simpa using hc0.le)
      refine ⟨⌈c⌉, rfl, ?_, ?_, mul_nonneg_of_nonpos_of_nonpos h0 hc0.le⟩
      · rw [abs_of_neg hc0, abs_of_nonpos h0]; linarith [Int.le_ceil c]
      · rw [abs_of_nonpos (by linarith [Int.le_ceil c])]; linarith [Int.ceil_lt_add_one c]
  · intro hne q hq r
    obtain ⟨lo, hi, hs, -⟩ := sup hne
    rw [one q lo hi none hs (fun s => (findPpf_edges solve _ _ false lo hi q s).1 hq) r]
    simp [store, Except.map]

/-- a root finder with the trusted contract exists -/
theorem brentNear_exists : ∃ solve, BrentNear solve := by
  classical
  have : ∀ (f : ℝ → ℝ) (a b : ℝ), ∃ x, a < b → f a ≤ 0 → 0 ≤ f b →
      x ∈ Set.Icc a b ∧ ∃ y ∈ Set.Icc a b, |x - y| < 2e-12 + 4 * eps * |x| ∧ f x * f y ≤ 0 := by
    intro f a b
    by_cases h : a < b ∧ f a ≤ 0 ∧ 0 ≤ f b
    · obtain ⟨hab, ha, hb⟩ := h
      set S := {x | x ∈ Set.Icc a b ∧ f x ≤ 0} with hS
      have haS : a ∈ S := ⟨⟨le_rfl, hab.le⟩, ha⟩
      have hbdd : BddAbove S := ⟨b, fun x hx => hx.1.2⟩
      set s := sSup S with hs
      have hsb : s ≤ b := csSup_le ⟨a, haS⟩ fun x hx => hx.1.2
      obtain ⟨x, hx, hx1⟩ := exists_lt_of_lt_csSup ⟨a, haS⟩ (show s - 1e-12 < s by norm_num)
      have hx2 : x ≤ s := le_csSup hbdd hx
      have hpos : 0 ≤ 4 * eps * |x| := by unfold eps; positivity
      obtain ⟨y, hy1, hy2, hy3⟩ : ∃ y ∈ Set.Icc a b, |x - y| < 2e-12 ∧ 0 ≤ f y := by
        rcases eq_or_lt_of_le hsb with h | h
        · refine ⟨b, ⟨hab.le, le_rfl⟩, ?_, hb⟩
          rw [abs_sub_lt_iff]
          constructor <;> norm_num at * <;> linarith
        · have h1 : s < min (s + 1e-12) b := lt_min (by norm_num) h
          obtain ⟨y, y1, y2⟩ := exists_between h1
          have y3 := lt_min_iff.1 y2
          have y4 : y ∈ Set.Icc a b := ⟨(hx.1.1.trans hx2).trans y1.le, y3.2.le⟩
          refine ⟨y, y4, ?_, ?_⟩
          · rw [abs_sub_lt_iff]
            constructor <;> norm_num at * <;> linarith
          · by_contra hlt
            push Not at hlt
            have := le_csSup hbdd (show y ∈ S from ⟨y4, hlt.le⟩)
            linarith
      exact ⟨x, fun _ _ _ => ⟨hx.1, y, hy1, by linarith, mul_nonpos_of_nonpos_of_nonneg hx.2 hy3⟩⟩
    · exact ⟨0, fun a1 a2 a3 => absurd ⟨a1, a2, a3⟩ h⟩
  choose g hg using this
  exact ⟨g, hg⟩

private theorem example_cdf (x : ℝ) : (mixLaw ([dice 1, dice 5].map Base.law) [1, 3]).real (Set.Iic x) =
    (dice 1).cdf (x : EReal) * (1 / 4) + (dice 5).cdf (x : EReal) * (3 / 4) := by
  have hg : GoodWeights [dice 1, dice 5].length [1, 3] := ⟨rfl, by simp, by norm_num⟩
  rw [← mixture_cdf _ _ hg]
  unfold mixCdf mixWeights
  simp only [List.map_cons, List.map_nil, List.sum_cons, List.sum_nil, List.zipWith_cons_cons, List.zipWith_nil_left]
  norm_num

/-- two dice with weights 1 and 3: the smallest value at level 1/10, with no other point there -/
example : GoodWeights [dice 1, dice 5].length [1, 3] ∧
    IsQuantile (mixLaw ([dice 1, dice 5].map Base.law) [1, 3]) (1 / 10) (0 : ℝ) ∧
    ∀ x, 0 < x → (mixLaw ([dice 1, dice 5].map Base.law) [1, 3]).real (Set.Iic x) ≠ 1 / 10 := by
  classical
  have e0 : ∀ n, (dice n).cdf ((0 : ℝ) : EReal) = 1 / (n + 1) := by
    intro n
    rw [Base.cdf_coe]
    show (diceLaw n).real _ = _
    rw [diceLaw_real]
    rw [Finset.sum_eq_single 0]
    · simp
    · intro k hk hk0
      have : ¬ ((k : ℝ) ∈ Set.Iic (0 : ℝ)) := by
        simp only [Set.mem_Iic, not_le]
        exact_mod_cast Nat.pos_of_ne_zero hk0
      simp [this]
    · simp
  have en : ∀ n (x : ℝ), x < 0 → (dice n).cdf (x : EReal) = 0 := by
    intro n x hx
    rw [Base.cdf_coe]
    show (diceLaw n).real _ = _
    rw [diceLaw_real]
    apply Finset.sum_eq_zero
    intro k _
    have : ¬ ((k : ℝ) ∈ Set.Iic x) := by
      simp only [Set.mem_Iic, not_le]
      exact lt_of_lt_of_le hx (by positivity)
    simp [this]
  have ge : ∀ x : ℝ, 0 ≤ x → 1 / 4 ≤ (mixLaw ([dice 1, dice 5].map Base.law) [1, 3]).real (Set.Iic x) := by
    intro x hx
    rw [example_cdf]
    have h1 := (dice 1).cdf_mono (x := ((0 : ℝ) : EReal)) (y := (x : EReal)) (by exact_mod_cast hx)
    have h2 := (dice 5).cdf_mono (x := ((0 : ℝ) : EReal)) (y := (x : EReal)) (by exact_mod_cast hx)
    rw [e0] at h1 h2
    norm_num at h1 h2
    linarith
  refine ⟨⟨rfl, by simp, by norm_num⟩, ?_, ?_⟩
  · intro x
    constructor
    · intro h
      have := ge x (by exact_mod_cast h)
      linarith
    · intro h
      by_contra hlt
      have hx : x < 0 := by
        rw [not_le] at hlt; exact_mod_cast hlt
      rw [example_cdf, en 1 x hx, en 5 x hx] at h
      norm_num at h
  · intro x hx h
    have := ge x hx.le
    rw [h] at this
    norm_num at this

/-- a mixture of two uniform distributions has no flat parts in its cdf -/
example : GoodWeights [unif 0 1 one_pos, unif 0 2 two_pos].length [1, 1] ∧
    (∀ b ∈ [unif 0 1 one_pos, unif 0 2 two_pos], b.discrete = false) ∧
    ∀ x y, x < y → 0 < (mixLaw ([unif 0 1 one_pos, unif 0 2 two_pos].map Base.law) [1, 1]).real (Set.Iic x) →
      (mixLaw ([unif 0 1 one_pos, unif 0 2 two_pos].map Base.law) [1, 1]).real (Set.Iic x) < 1 →
      (mixLaw ([unif 0 1 one_pos, unif 0 2 two_pos].map Base.law) [1, 1]).real (Set.Iic x) <
        (mixLaw ([unif 0 1 one_pos, unif 0 2 two_pos].map Base.law) [1, 1]).real (Set.Iic y) := by
  have hg : GoodWeights [unif 0 1 one_pos, unif 0 2 two_pos].length [1, 1] := ⟨rfl, by simp, by norm_num⟩
  have hc : ∀ (c : ℝ) (h : 0 < c) (x : ℝ), (unif 0 c h).cdf (x : EReal) = max 0 (min x c) / c := by
    intro c h x
    rw [Base.cdf_coe, unif_real 0 c h _ measurableSet_Iic]
    have : Set.Iic x ∩ Set.Icc 0 c = Set.Icc 0 (min x c) := by
      ext y; simp; tauto
    rw [this, Real.volume_real_Icc, sub_zero, sub_zero, max_comm]
  have e : ∀ x, (mixLaw ([unif 0 1 one_pos, unif 0 2 two_pos].map Base.law) [1, 1]).real (Set.Iic x) =
      max 0 (min x 1) * (1 / 2) + max 0 (min x 2) / 2 * (1 / 2) := by
    intro x
    rw [← mixture_cdf _ _ hg]
    unfold mixCdf mixWeights
    simp only [List.map_cons, List.map_nil, List.sum_cons, List.sum_nil, List.zipWith_cons_cons, List.zipWith_nil_left,
      hc]
    norm_num
  refine ⟨hg, by simp; exact ⟨rfl, rfl⟩, ?_⟩
  intro x y hxy h0 h1
  rw [e] at h0 h1 ⊢
  rw [e]
  have hx0 : 0 < x := by
    by_contra h
    push Not at h
    rw [max_eq_left ((min_le_left _ _).trans h), max_eq_left ((min_le_left _ _).trans h)] at h0
    norm_num at h0
  have hx2 : x < 2 := by
    by_contra h
    push Not at h
    rw [min_eq_right h, min_eq_right (by linarith)] at h1
    norm_num at h1
  have a1 : max 0 (min x 1) ≤ max 0 (min y 1) := max_le_max le_rfl (min_le_min hxy.le le_rfl)
  have a2 : max 0 (min x 2) < max 0 (min y 2) := by
    rw [min_eq_left hx2.le, max_eq_right hx0.le, max_eq_right (le_min (by linarith) (by norm_num))]
    exact lt_min hxy hx2
  linarith

example : ∃ b ∈ [unif 0 (5 / 2) (by norm_num), unif 0 1 one_pos], b.hi = ((5 / 2 : ℝ) : EReal) :=
  ⟨unif 0 (5 / 2) (by norm_num), by simp, rfl⟩

end Verif.Props
