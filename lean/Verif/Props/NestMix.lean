import Verif.Model.NestMix
import Verif.Props.NestLaw
import Verif.Props.Hurdle
import Verif.Props.Mixture

/-!
# C147: Hurdle and Mixture in nests
-/

namespace Verif.Props
open Verif MeasureTheory Verif.Spec Verif.Modifier Verif.NestLaw

/-! ## The two ways to the density -/

/-- C147: the density of a Hurdle around anything is the exponential of its log-density. -/
theorem nest_hurdle_pdf (f : Fns) (psi : ℝ) (h0 : 0 ≤ psi) (h1 : psi ≤ 1) (he : f.cdf ((eps : ℝ) : EReal) < 1) (x : ℝ) :
    (hurdleF psi f).pdf x = hurdlePdfF psi f x := by
  unfold Fns.pdf hurdlePdfF hurdleF logOf
  dsimp only
  have hpos : 0 < 1 - f.cdf ((eps : ℝ) : EReal) := by linarith
  by_cases hx : x = 0
  · simp only [hx, if_true]
    split
    · rename_i h; simp [expOf, h]
    · rename_i h
      exact Real.exp_log (lt_of_le_of_ne (by linarith) (Ne.symm h))
  · simp only [hx, if_false]
    by_cases hp : psi = 0
    · simp [hp, expOf]
    · have hp' : 0 < psi := lt_of_le_of_ne h0 (Ne.symm hp)
      simp only [hp, if_false, Option.bind_some, Fns.pdf]
      cases f.logpdf x with
      | none => simp [expOf]
      | some v => simp only [Option.map_some, expOf, Real.exp_sub, Real.exp_add, Real.exp_log hp', Real.exp_log hpos]

private theorem pdf_nonneg' (f : Fns) (x : ℝ) : 0 ≤ f.pdf x := by
  unfold Fns.pdf expOf
  split
  · exact le_rfl
  · exact (Real.exp_pos _).le

private theorem mix_terms (x : ℝ) : ∀ (fs : List Fns) (vs : List ℝ), (∀ w ∈ vs, 0 ≤ w) →
    ((List.zipWith (fun (f : Fns) w => (logOf w).bind fun lw => (f.logpdf x).map fun v => lw + v) fs vs).map
      expOf).sum = (List.zipWith (fun (f : Fns) w => f.pdf x * w) fs vs).sum ∧
      0 ≤ (List.zipWith (fun (f : Fns) w => f.pdf x * w) fs vs).sum
  | [], _, _ => by simp
  | _ :: _, [], _ => by simp
  | f :: fs, v :: vs, hw => by
    have hv : 0 ≤ v := hw v (by simp)
    obtain ⟨i1, i2⟩ := mix_terms x fs vs (fun w hw' => hw w (by simp [hw']))
    have hf := pdf_nonneg' f x
    simp only [List.zipWith_cons_cons, List.map_cons, List.sum_cons]
    refine ⟨?_, by positivity⟩
    rw [i1]
    congr 1
    unfold Fns.pdf logOf
    by_cases h0 : v = 0
    · simp [h0, expOf]
    · have : 0 < v := lt_of_le_of_ne hv (Ne.symm h0)
      simp only [h0, if_false, Option.bind_some]
      cases f.logpdf x with
      | none => simp [expOf]
      | some r => simp only [Option.map_some, expOf, Real.exp_add, Real.exp_log this]; ring

private theorem expOf_logOf' {p : ℝ} (h : 0 ≤ p) : expOf (logOf p) = p := by
  unfold logOf expOf
  by_cases h0 : p = 0
  · simp [h0]
  · simp only [h0, if_false]
    exact Real.exp_log (lt_of_le_of_ne h (Ne.symm h0))

/-- C147: the density of a Mixture of anything is the exponential of its log-density. -/
theorem nest_mix_pdf (d : Bool) (p : ℝ → Option EReal) (fs : List Fns) (ws : List ℝ) (h : GoodWeights fs.length ws) (x : ℝ) :
    (mixF d p fs ws).pdf x = mixPdfF fs ws x := by
  obtain ⟨h1, h2⟩ := mix_terms x fs (mixWeights ws) (mixture_weights ws _ h).2.1
  unfold mixPdfF
  rw [← h1] at h2 ⊢
  exact expOf_logOf' h2

/-! ## Hurdle around Hurdle -/

/-- C147: a Hurdle around a Hurdle is a Hurdle with the outer psi; the inner one has no effect. -/
theorem nest_hurdle_twice (f : Fns) (p1 p2 : ℝ) (h1 : 0 < p1) (h1' : p1 ≤ 1) (h2 : 0 < p2)
    (he : f.cdf ((eps : ℝ) : EReal) < 1) : hurdleF p2 (hurdleF p1 f) = hurdleF p2 f := by
  have hpos : 0 < 1 - f.cdf ((eps : ℝ) : EReal) := by linarith
  have hE : ¬ (((eps : ℝ) : EReal) ≤ 0) := by
    rw [not_le]; exact_mod_cast eps_pos
  have ce : (hurdleF p1 f).cdf ((eps : ℝ) : EReal) = 1 - p1 := by
    simp only [hurdleF, hE, if_false]
    rw [mul_div_assoc, div_self hpos.ne', mul_one]
  have c0 : (hurdleF p1 f).cdf ((0 : ℝ) : EReal) = 1 - p1 := by simp [hurdleF]
  have clow : (hurdleF p1 f).cdf (((if f.discrete then 0 else eps : ℝ)) : EReal) = 1 - p1 := by
    split
    · exact c0
    · exact ce
  have hd : (hurdleF p1 f).discrete = f.discrete := rfl
  have e1 : (hurdleF p2 (hurdleF p1 f)).logpdf = (hurdleF p2 f).logpdf := by
    funext x
    show (if x = 0 then logOf (1 - p2) else (logOf p2).bind fun lp => ((hurdleF p1 f).logpdf x).map fun v =>
      lp + v - Real.log (1 - (hurdleF p1 f).cdf (eps : ℝ))) = _
    rw [ce]
    by_cases hx : x = 0
    · simp [hurdleF, hx]
    · have hn : logOf p1 = some (Real.log p1) := by simp [logOf, h1.ne']
      have hn2 : logOf p2 = some (Real.log p2) := by simp [logOf, h2.ne']
      simp only [hurdleF, hx, if_false, hn, hn2, Option.bind_some, Option.map_map]
      congr 1
      funext v
      simp only [Function.comp, sub_sub_cancel]
      ring
  have e2 : (hurdleF p2 (hurdleF p1 f)).cdf = (hurdleF p2 f).cdf := by
    funext x
    show (if x ≤ 0 then 1 - p2 else 1 - p2 * (1 - (hurdleF p1 f).cdf x) / (1 - (hurdleF p1 f).cdf (eps : ℝ))) = _
    rw [ce]
    by_cases hx : x ≤ 0
    · simp [hurdleF, hx]
    · simp only [hurdleF, hx, if_false]
      rw [sub_sub_cancel, sub_sub_cancel]
      field_simp
  have e3 : (hurdleF p2 (hurdleF p1 f)).ppf = (hurdleF p2 f).ppf := by
    funext q
    show (if q < 0 ∨ q > 1 then none else if q ≥ 1 - p2 then (hurdleF p1 f).ppf
      ((hurdleF p1 f).cdf (((if f.discrete then 0 else eps : ℝ)) : EReal) + (q - (1 - p2)) *
        (1 - (hurdleF p1 f).cdf (((if f.discrete then 0 else eps : ℝ)) : EReal)) / p2) else some 0) = _
    rw [clow]
    by_cases hq : q < 0 ∨ q > 1
    · simp [hurdleF, hq]
    · by_cases hq2 : q ≥ 1 - p2
      · have ht0 : 0 ≤ (q - (1 - p2)) / p2 := div_nonneg (by linarith) h2.le
        have ht1 : (q - (1 - p2)) / p2 ≤ 1 := by
          rw [div_le_one h2]; push Not at hq; linarith [hq.2]
        have hlev : 1 - p1 + (q - (1 - p2)) * (1 - (1 - p1)) / p2 = 1 - p1 + (q - (1 - p2)) / p2 * p1 := by
          field_simp; ring
        rw [hlev]
        set t := (q - (1 - p2)) / p2 with ht
        have a1 : ¬ (1 - p1 + t * p1 < 0 ∨ 1 - p1 + t * p1 > 1) := by
          push Not
          constructor <;> nlinarith
        have a2 : 1 - p1 + t * p1 ≥ 1 - p1 := by nlinarith
        simp only [hurdleF, hq, hq2, a1, a2, if_false, if_true]
        congr 2
        rw [ht]
        field_simp
        ring
      · simp only [hurdleF, hq, hq2, if_false]
  have : ∀ a b : Fns, a.discrete = b.discrete → a.lo = b.lo → a.hi = b.hi → a.logpdf = b.logpdf → a.cdf = b.cdf →
      a.ppf = b.ppf → a = b := by
    rintro ⟨⟩ ⟨⟩ rfl rfl rfl rfl rfl rfl; rfl
  exact this _ _ rfl rfl rfl e1 e2 e3

/-! ## Hurdle and Truncated -/

/-- C147: truncating a Hurdle to positive values is truncating the distribution inside, for a discrete distribution; for a
continuous one the lower bound has to be at least machine precision. -/
theorem nest_trunc_hurdle (b : Base) (psi : ℝ) (h0 : 0 < psi) (h1 : psi ≤ 1) (l u : EReal) (hl : 0 < l)
    (hd : b.discrete = true → Whole l) (hc : b.discrete = false → ((eps : ℝ) : EReal) ≤ l)
    (hm : 0 < b.law.real (between l u)) : truncF l u (hurdleF psi (ofBase b)) = truncF l u (ofBase b) := by
  have hgap := b.mass_total hd hm
  have hlu := b.adj_le_upper hd hm
  set low := adjustLower b.discrete l with hlow
  -- the bound below which the truncation cuts
  have hlow0 : (0 : EReal) < low ∨ (low = 0 ∧ b.cdf ((0 : ℝ) : EReal) = b.cdf ((eps : ℝ) : EReal)) := by
    cases h : b.discrete with
    | false => left; rw [hlow, h]; exact hl
    | true =>
      rw [hlow, h]
      rcases hd h with e | e | ⟨n, e⟩
      · left
        have : (⊤ : EReal) - 1 = ⊤ := by
          rw [← EReal.coe_one]; exact EReal.top_sub_coe 1
        rw [e]; simp [adjustLower, this]
      · rw [e] at hl; exact absurd hl not_lt_bot
      · have hn : 0 < n := by
          rw [e] at hl
          have : (0 : ℝ) < n := by exact_mod_cast hl
          exact_mod_cast this
        have ha : adjustLower true l = (((n - 1 : ℤ) : ℝ) : EReal) := by
          rw [e]; simp only [adjustLower, if_true]; push_cast; simp
        rw [ha]
        rcases (show (1 : ℤ) ≤ n from hn).eq_or_lt with h' | h'
        · right
          refine ⟨by rw [← h']; simp, (hurdle_eps_discrete b h).symm⟩
        · left
          have : (0 : ℝ) < ((n - 1 : ℤ) : ℝ) := by exact_mod_cast (by omega : (0 : ℤ) < n - 1)
          exact_mod_cast this
  have hle : b.cdf ((eps : ℝ) : EReal) ≤ b.cdf low := by
    cases h : b.discrete with
    | false => rw [hlow, h]; exact b.cdf_mono (hc h)
    | true =>
      rw [hurdle_eps_discrete b h]
      apply b.cdf_mono
      rcases hlow0 with h' | h'
      · exact_mod_cast h'.le
      · rw [h'.1]; simp
  have hu1 := b.cdf_le_one u
  have hpos : 0 < 1 - b.cdf ((eps : ℝ) : EReal) := by linarith
  have H : ∀ x : EReal, low ≤ x → (hurdleF psi (ofBase b)).cdf x = 1 - psi * (1 - b.cdf x) / (1 - b.cdf ((eps : ℝ) : EReal)) := by
    intro x hx
    show (if x ≤ 0 then 1 - psi else 1 - psi * (1 - b.cdf x) / (1 - b.cdf ((eps : ℝ) : EReal))) = _
    split
    · rename_i h
      rcases hlow0 with h' | ⟨h', h''⟩
      · exact absurd (h'.trans_le hx) (not_lt.2 h)
      · have : x = ((0 : ℝ) : EReal) := le_antisymm (by simpa using h) (by rw [h'] at hx; simpa using hx)
        rw [this, h'', mul_div_assoc, div_self hpos.ne', mul_one]
    · rfl
  have hdiff : ∀ x : EReal, low ≤ x → (hurdleF psi (ofBase b)).cdf x - (hurdleF psi (ofBase b)).cdf low =
      psi / (1 - b.cdf ((eps : ℝ) : EReal)) * (b.cdf x - b.cdf low) := by
    intro x hx
    rw [H x hx, H low le_rfl]; ring
  have hk : 0 < psi / (1 - b.cdf ((eps : ℝ) : EReal)) := by positivity
  have hΔ : 0 < b.cdf u - b.cdf low := by rw [← hgap]; exact hm
  have e1 : (truncF l u (hurdleF psi (ofBase b))).logpdf = (truncF l u (ofBase b)).logpdf := by
    funext x
    show (if (x : EReal) < l ∨ (x : EReal) > u then none else ((hurdleF psi (ofBase b)).logpdf x).map fun v =>
      v - Real.log ((hurdleF psi (ofBase b)).cdf u - (hurdleF psi (ofBase b)).cdf low)) =
      (if (x : EReal) < l ∨ (x : EReal) > u then none else (b.logpdf x).map fun v => v - Real.log (b.cdf u - b.cdf low))
    by_cases hx : (x : EReal) < l ∨ (x : EReal) > u
    · simp [hx]
    · rw [if_neg hx, if_neg hx, hdiff u hlu.le]
      push Not at hx
      have hx0 : x ≠ 0 := by
        rintro rfl
        exact absurd (hl.trans_le hx.1) (by simp)
      have hn : logOf psi = some (Real.log psi) := by simp [logOf, h0.ne']
      simp only [hurdleF, ofBase, hx0, if_false, hn, Option.bind_some, Option.map_map]
      congr 1
      funext v
      simp only [Function.comp]
      rw [Real.log_mul hk.ne' hΔ.ne', Real.log_div h0.ne' hpos.ne']
      ring
  have e2 : (truncF l u (hurdleF psi (ofBase b))).cdf = (truncF l u (ofBase b)).cdf := by
    funext x
    show (if x < low then 0 else if x > u then 1 else
      ((hurdleF psi (ofBase b)).cdf x - (hurdleF psi (ofBase b)).cdf low) /
        ((hurdleF psi (ofBase b)).cdf u - (hurdleF psi (ofBase b)).cdf low)) =
      (if x < low then 0 else if x > u then 1 else (b.cdf x - b.cdf low) / (b.cdf u - b.cdf low))
    by_cases hx : x < low
    · simp [hx]
    · rw [if_neg hx, if_neg hx, hdiff u hlu.le, hdiff x (not_lt.1 hx), mul_div_mul_left _ _ hk.ne']
  have e3 : (truncF l u (hurdleF psi (ofBase b))).ppf = (truncF l u (ofBase b)).ppf := by
    funext q
    show (if q < 0 ∨ q > 1 then none else (hurdleF psi (ofBase b)).ppf ((hurdleF psi (ofBase b)).cdf low +
        q * ((hurdleF psi (ofBase b)).cdf u - (hurdleF psi (ofBase b)).cdf low))) =
      (if q < 0 ∨ q > 1 then none else (ofBase b).ppf (b.cdf low + q * (b.cdf u - b.cdf low)))
    by_cases hq : q < 0 ∨ q > 1
    · simp [hq]
    · rw [if_neg hq, if_neg hq, hdiff u hlu.le, H low le_rfl]
      push Not at hq
      have hlc : b.cdf (((if b.discrete then 0 else eps : ℝ)) : EReal) = b.cdf ((eps : ℝ) : EReal) := by
        split
        · rename_i h; exact (hurdle_eps_discrete b h).symm
        · rfl
      set c := b.cdf ((eps : ℝ) : EReal)
      have hlev : 1 - psi * (1 - b.cdf low) / (1 - c) + q * (psi / (1 - c) * (b.cdf u - b.cdf low)) =
          1 - psi + psi / (1 - c) * (b.cdf low - c + q * (b.cdf u - b.cdf low)) := by
        field_simp; ring
      rw [hlev]
      have hs0 : 0 ≤ b.cdf low - c + q * (b.cdf u - b.cdf low) := by nlinarith
      have hs1 : b.cdf low - c + q * (b.cdf u - b.cdf low) ≤ 1 - c := by nlinarith
      have hr0 : 0 ≤ psi / (1 - c) * (b.cdf low - c + q * (b.cdf u - b.cdf low)) := mul_nonneg hk.le hs0
      have hr1 : psi / (1 - c) * (b.cdf low - c + q * (b.cdf u - b.cdf low)) ≤ psi := by
        rw [div_mul_eq_mul_div, div_le_iff₀ hpos]
        exact mul_le_mul_of_nonneg_left hs1 h0.le
      show (if _ then none else if _ then (ofBase b).ppf (b.cdf (((if b.discrete then 0 else eps : ℝ)) : EReal) + _ *
        (1 - b.cdf (((if b.discrete then 0 else eps : ℝ)) : EReal)) / psi) else some 0) = _
      rw [hlc, if_neg (by push Not; constructor <;> linarith), if_pos (by linarith)]
      congr 1
      field_simp
      ring
  have : ∀ a b : Fns, a.discrete = b.discrete → a.lo = b.lo → a.hi = b.hi → a.logpdf = b.logpdf → a.cdf = b.cdf →
      a.ppf = b.ppf → a = b := by
    rintro ⟨⟩ ⟨⟩ rfl rfl rfl rfl rfl rfl; rfl
  exact this _ _ rfl rfl rfl e1 e2 e3

/-- C147: what fails: a Hurdle inside a Truncated with a lower bound at or below zero.  The cdf of a Hurdle is `1 - psi`
below zero, so the truncation takes the mass at zero to lie outside: the density is the one of the Hurdle divided by
`P(0 < X ≤ u)` instead of `P(X ≤ u)`, and the cdf at zero is zero. -/
theorem nest_trunc_hurdle_zero (f : Fns) (psi : ℝ) (l u : EReal) (hl : l ≤ 0)
    (hm : 1 - psi < (hurdleF psi f).cdf u) (x : ℝ) (hx : l ≤ (x : EReal)) (hxu : (x : EReal) ≤ u) :
    (truncF l u (hurdleF psi f)).pdf x = (hurdleF psi f).pdf x / ((hurdleF psi f).cdf u - (1 - psi)) ∧
      (x ≤ 0 → (truncF l u (hurdleF psi f)).cdf x = 0) := by
  have hlow : adjustLower f.discrete l ≤ 0 := (adjust_le _ l).trans hl
  have hc : (hurdleF psi f).cdf (adjustLower f.discrete l) = 1 - psi := by
    show (if _ then _ else _) = _
    rw [if_pos hlow]
  have hd : (hurdleF psi f).discrete = f.discrete := rfl
  constructor
  · show expOf (if (x : EReal) < l ∨ (x : EReal) > u then none else ((hurdleF psi f).logpdf x).map fun v =>
      v - Real.log ((hurdleF psi f).cdf u - (hurdleF psi f).cdf (adjustLower f.discrete l))) = _
    rw [hc, if_neg (by push Not; exact ⟨hx, hxu⟩), Fns.pdf]
    cases (hurdleF psi f).logpdf x with
    | none => simp [expOf]
    | some v => simp only [Option.map_some, expOf, Real.exp_sub, Real.exp_log (show 0 < (hurdleF psi f).cdf u - (1 - psi) by linarith)]
  · intro h
    have hxc : (hurdleF psi f).cdf x = 1 - psi := by
      show (if _ then _ else _) = _
      rw [if_pos (by exact_mod_cast h)]
    show (if (x : EReal) < adjustLower f.discrete l then 0 else if (x : EReal) > u then 1 else
      ((hurdleF psi f).cdf x - (hurdleF psi f).cdf (adjustLower f.discrete l)) / _) = 0
    rw [hc, hxc, if_neg (not_lt.2 ((adjust_le _ l).trans hx)), if_neg (not_lt.2 hxu), sub_self, zero_div]

/-- C147: the probabilities of a Hurdle of a discrete distribution put into a Truncated without bounds add up to `1 / psi`,
more than one. -/
theorem nest_trunc_hurdle_sum (b : Base) (hd : b.discrete = true) (hb : HurdleBase b) (psi : ℝ) (h0 : 0 < psi)
    (h1 : psi < 1) :
    HasSum (fun k : ℤ => (truncF ⊥ ⊤ (hurdleF psi (ofBase b))).pdf (k : ℝ)) (1 / psi) ∧ 1 < 1 / psi := by
  refine ⟨?_, by rw [lt_div_iff₀ h0]; linarith⟩
  have ht := hurdle_tail b
  have hpos := hb.pos
  have he := hurdle_eps_discrete b hd
  have hc : (hurdleF psi (ofBase b)).cdf ⊤ = 1 := by
    show (if (⊤ : EReal) ≤ 0 then 1 - psi else 1 - psi * (1 - b.cdf ⊤) / (1 - b.cdf ((eps : ℝ) : EReal))) = 1
    rw [if_neg (by simp), b.cdf_top]; simp
  have hm : 1 - psi < (hurdleF psi (ofBase b)).cdf ⊤ := by rw [hc]; linarith
  have hset : between ((1 : ℝ) : EReal) ⊤ =ᵐ[b.law] Set.Ioi 0 := by
    filter_upwards [(b.discrete_law hd).1] with y ⟨k, hk⟩
    apply propext
    show (((1 : ℝ) : EReal) ≤ (y : EReal) ∧ (y : EReal) ≤ ⊤) ↔ 0 < y
    rw [EReal.coe_le_coe_iff, hk]
    simp only [le_top, and_true]
    constructor
    · intro h; linarith
    · intro h; exact_mod_cast (by exact_mod_cast h : (0 : ℤ) < k)
  have hmass : b.law.real (between ((1 : ℝ) : EReal) ⊤) = b.law.real (Set.Ioi 0) := measureReal_congr hset
  have hW : Whole ((1 : ℝ) : EReal) := Or.inr (Or.inr ⟨1, by norm_num⟩)
  have hs := truncated_sum_one b hd ((1 : ℝ) : EReal) ⊤ hW (by rw [hmass]; exact hpos)
  have hz : HasSum (fun k : ℤ => if k = 0 then 1 - psi else 0) (1 - psi) := hasSum_ite_eq 0 (1 - psi)
  have htot := ((hs.mul_left psi).add hz).div_const psi
  have e : (psi * 1 + (1 - psi)) / psi = 1 / psi := by ring
  rw [e] at htot
  suffices hfun : (fun k : ℤ => (truncF ⊥ ⊤ (hurdleF psi (ofBase b))).pdf (k : ℝ)) =
      fun k : ℤ => (psi * truncPdf b ((1 : ℝ) : EReal) ⊤ (k : ℝ) + if k = 0 then 1 - psi else 0) / psi by
    rw [hfun]; exact htot
  funext k
  rw [(nest_trunc_hurdle_zero (ofBase b) psi ⊥ ⊤ bot_le hm (k : ℝ) bot_le le_top).1, hc,
    nest_hurdle_pdf _ _ h0.le h1.le (by show b.cdf _ < 1; rw [he]; linarith),
    trunc_pdf_eq b _ _ (fun _ => hW) (by rw [hmass]; exact hpos), hmass, sub_sub_cancel]
  congr 1
  have hpb : (ofBase b).pdf (k : ℝ) = b.pdf (k : ℝ) := expOf_logOf' (b.pdf_nonneg _)
  have hcb : (ofBase b).cdf ((eps : ℝ) : EReal) = b.cdf ((eps : ℝ) : EReal) := rfl
  unfold hurdlePdfF
  rw [hpb, hcb, he, ← ht]
  by_cases hk : k = 0
  · subst hk
    simp [between]
  · have hk' : (k : ℝ) ≠ 0 := by exact_mod_cast hk
    rw [if_neg hk', if_neg hk, add_zero]
    rcases lt_or_gt_of_ne hk with h | h
    · have h' : (k : ℝ) < 0 := by exact_mod_cast h
      have : b.pdf (k : ℝ) = 0 := by
        rw [(b.discrete_law hd).2, measureReal_eq_zero_iff]
        refine measure_mono_null ?_ (ae_iff.1 hb.nonneg)
        intro y hy
        simp only [Set.mem_singleton_iff] at hy
        simp only [Set.mem_ofPred_eq, not_le, hy]
        exact h'
      rw [this, Set.indicator_of_notMem]
      · simp
      · intro hm'
        have h2 := hm'.1
        rw [EReal.coe_le_coe_iff] at h2
        linarith
    · have h' : (1 : ℝ) ≤ k := by exact_mod_cast h
      rw [Set.indicator_of_mem]
      · ring
      · exact ⟨by rw [EReal.coe_le_coe_iff]; exact h', le_top⟩

/-- C147: a Hurdle around a discrete truncated distribution: the mass function is that of the hurdle law of the truncated
law, and the cdf is right at points that are not negative. -/
theorem nest_hurdle_trunc (b : Base) (hd : b.discrete = true) (l u : EReal) (hl : Whole l) (hm : 0 < b.law.real (between l u))
    (hn : ∀ᵐ (y : ℝ) ∂truncLaw b.law l u, 0 ≤ y) (hp : 0 < (truncLaw b.law l u).real (Set.Ioi 0)) (psi : ℝ)
    (h0 : 0 ≤ psi) (h1 : psi ≤ 1) (x : ℝ) :
    (hurdleF psi (truncF l u (ofBase b))).pdf x = (hurdleLaw (truncLaw b.law l u) psi).real {x} ∧
      (0 ≤ x → (hurdleF psi (truncF l u (ofBase b))).cdf x = (hurdleLaw (truncLaw b.law l u) psi).real (Set.Iic x)) := by
  have hA := agrees_trunc (agrees_base b) (fun _ => hl) hm
  set B := nestBase b l u (fun _ => hl) hm
  have hB : HurdleBase B := ⟨hn, hp⟩
  have hdB : B.discrete = true := hd
  have he := hurdle_eps_discrete B hdB
  have ht := hurdle_tail B
  have hpB : 0 < B.law.real (Set.Ioi 0) := hp
  constructor
  · rw [nest_hurdle_pdf _ _ h0 h1 (by rw [hA.cdf, he]; linarith)]
    refine Eq.trans ?_ (hurdle_mass B hdB hB psi h0 h1 x)
    unfold hurdlePdfF hurdlePdf
    rw [hA.cdf, Fns.pdf, hA.logpdf, Base.logpdf, expOf_logOf' (B.pdf_nonneg x)]
  · intro hx
    refine Eq.trans ?_ ((hurdle_cdf_partial B hB psi h0 h1 he x).2 (Or.inl hx))
    show (if (x : EReal) ≤ 0 then 1 - psi else 1 - psi * (1 - (truncF l u (ofBase b)).cdf x) /
      (1 - (truncF l u (ofBase b)).cdf (eps : ℝ))) = hurdleCdf B psi x
    rw [hA.cdf, hA.cdf]
    unfold hurdleCdf
    by_cases h : x ≤ 0
    · rw [if_pos h, if_pos (by exact_mod_cast h)]
    · rw [if_neg h, if_neg (by exact_mod_cast h)]

/-! ## Mixtures -/

/-- weights of the components of the mixtures inside a mixture -/
private noncomputable def flatWeights : List (List Fns × List ℝ) → List ℝ → List ℝ
  | c :: cs, w :: ws => (mixWeights c.2).map (w * ·) ++ flatWeights cs ws
  | _, _ => []

private theorem zipWith_scale {α : Type} (g : α → ℝ) (fs : List α) (vs : List ℝ) (c : ℝ) :
    (List.zipWith (fun f w => g f * w) fs (vs.map (c * ·))).sum = c * (List.zipWith (fun f w => g f * w) fs vs).sum := by
  induction fs generalizing vs with
  | nil => simp
  | cons f fs ih =>
    cases vs with
    | nil => simp
    | cons v vs => simp only [List.map_cons, List.zipWith_cons_cons, List.sum_cons, ih]; ring

private theorem flat_sum (g : Fns → ℝ) (s : ℝ) : ∀ (cs : List (List Fns × List ℝ)) (ws : List ℝ),
    (∀ c ∈ cs, GoodWeights c.1.length c.2) → ws.length = cs.length →
    (List.zipWith (fun f w => g f * w) (cs.map Prod.fst).flatten ((flatWeights cs ws).map (· / s))).sum =
      (List.zipWith (fun (c : List Fns × List ℝ) w => (List.zipWith (fun f v => g f * v) c.1 (mixWeights c.2)).sum * w) cs
        (ws.map (· / s))).sum
  | [], _, _, _ => by simp
  | _ :: _, [], _, h => by simp at h
  | c :: cs, w :: ws, hc, hl => by
    have hlen : c.1.length = (mixWeights c.2).length := ((mixture_weights c.2 _ (hc c (by simp))).1).symm
    simp only [List.map_cons, List.flatten_cons, flatWeights, List.map_append, List.map_map]
    rw [List.zipWith_append (by simp [hlen]), List.sum_append, List.zipWith_cons_cons, List.sum_cons,
      flat_sum g s cs ws (fun c' h' => hc c' (by simp [h'])) (by simpa using hl)]
    congr 1
    have : ((fun x => x / s) ∘ fun x => w * x) = fun x : ℝ => (w / s) * x := by
      funext x; simp only [Function.comp]; ring
    rw [this, zipWith_scale]
    ring

private theorem flat_total : ∀ (cs : List (List Fns × List ℝ)) (ws : List ℝ),
    (∀ c ∈ cs, GoodWeights c.1.length c.2) → ws.length = cs.length → (flatWeights cs ws).sum = ws.sum ∧
      (flatWeights cs ws).length = (cs.map Prod.fst).flatten.length
  | [], ws, _, h => by
    have : ws = [] := by simpa using h
    simp [this, flatWeights]
  | _ :: _, [], _, h => by simp at h
  | c :: cs, w :: ws, hc, hl => by
    obtain ⟨i1, i2⟩ := flat_total cs ws (fun c' h' => hc c' (by simp [h'])) (by simpa using hl)
    obtain ⟨m1, -, m3⟩ := mixture_weights c.2 _ (hc c (by simp))
    simp only [flatWeights, List.sum_append, List.length_append, List.map_cons, List.flatten_cons, List.sum_cons, i1, i2,
      List.length_map, m1, and_true]
    rw [List.sum_map_mul_left]
    simp [m3]

private theorem flat_nonneg : ∀ (cs : List (List Fns × List ℝ)) (ws : List ℝ),
    (∀ c ∈ cs, GoodWeights c.1.length c.2) → (∀ w ∈ ws, 0 ≤ w) → ∀ v ∈ flatWeights cs ws, 0 ≤ v
  | [], _, _, _ => by simp [flatWeights]
  | _ :: _, [], _, _ => by simp [flatWeights]
  | c :: cs, w :: ws, hc, hw => by
    intro v hv
    rw [flatWeights, List.mem_append] at hv
    rcases hv with hv | hv
    · obtain ⟨y, hy, rfl⟩ := List.mem_map.1 hv
      exact mul_nonneg (hw w (by simp)) ((mixture_weights c.2 _ (hc c (by simp))).2.1 y hy)
    · exact flat_nonneg cs ws (fun c' h' => hc c' (by simp [h'])) (fun w' h' => hw w' (by simp [h'])) v hv

/-- C147: a Mixture of Mixtures is one Mixture of all the components, each weighted with the product of its normalised
weight and the weight of the Mixture it is in. -/
theorem nest_mix_mix (d : Bool) (p : ℝ → Option EReal) (cs : List (List Fns × List ℝ)) (ws : List ℝ)
    (hc : ∀ c ∈ cs, GoodWeights c.1.length c.2) (hw : GoodWeights cs.length ws) :
    ∃ vs, GoodWeights (cs.map Prod.fst).flatten.length vs ∧
      (∀ (i : ℕ) (c : List Fns × List ℝ) (w : ℝ), cs[i]? = some c → ws[i]? = some w → ∀ (j : ℕ) (v : ℝ), c.2[j]? = some v →
        vs[((cs.take i).map fun c => c.1.length).sum + j]? = some (w * (v / c.2.sum))) ∧
      ∀ x : ℝ, mixPdfF (cs.map fun c => mixF d p c.1 c.2) ws x = mixPdfF (cs.map Prod.fst).flatten vs x ∧
        (mixF d p (cs.map fun c => mixF d p c.1 c.2) ws).cdf x = (mixF d p (cs.map Prod.fst).flatten vs).cdf x := by
  obtain ⟨ht, hlen⟩ := flat_total cs ws hc hw.len
  refine ⟨flatWeights cs ws, ⟨hlen, flat_nonneg cs ws hc hw.nonneg, ht ▸ hw.pos⟩, ?_, fun x => ⟨?_, ?_⟩⟩
  · clear ht hlen
    obtain ⟨hl, -, -⟩ := hw
    induction cs generalizing ws with
    | nil => intro i c w h; simp at h
    | cons c cs ih =>
      cases ws with
      | nil => simp at hl
      | cons w ws =>
        have hcl : c.1.length = (mixWeights c.2).length := ((mixture_weights c.2 _ (hc c (by simp))).1).symm
        intro i c' w' h1 h2 j v hv
        cases i with
        | zero =>
          simp only [List.getElem?_cons_zero, Option.some.injEq] at h1 h2
          subst h1 h2
          have hj : j < c.2.length := by
            by_contra hj
            rw [List.getElem?_eq_none (by omega)] at hv
            simp at hv
          simp only [List.take_zero, List.map_nil, List.sum_nil, zero_add, flatWeights]
          rw [List.getElem?_append_left (by simp [mixWeights, hj])]
          simp [mixWeights, hv]
        | succ i =>
          simp only [List.getElem?_cons_succ] at h1 h2
          have := ih ws (fun c' h' => hc c' (by simp [h'])) (by simpa using hl) i c' w' h1 h2 j v hv
          simp only [List.take_succ_cons, List.map_cons, List.sum_cons, flatWeights]
          rw [List.getElem?_append_right (by rw [List.length_map, ← hcl]; omega), List.length_map, ← hcl, ← this]
          congr 1
          omega
  · unfold mixPdfF
    have hpdf : ∀ f : List Fns × List ℝ, f ∈ cs → (mixF d p f.1 f.2).pdf x =
        (List.zipWith (fun g v => g.pdf x * v) f.1 (mixWeights f.2)).sum := fun f hf => nest_mix_pdf d p f.1 f.2 (hc f hf) x
    show _ = (List.zipWith (fun (f : Fns) w => f.pdf x * w) _ ((flatWeights cs ws).map (· / (flatWeights cs ws).sum))).sum
    rw [ht, flat_sum (fun f => f.pdf x) ws.sum cs ws hc hw.len, List.zipWith_map_left]
    show (List.zipWith _ cs (ws.map (· / ws.sum))).sum = _
    congr 1
    apply List.ext_getElem
    · simp
    · intro n h1 h2
      simp only [List.getElem_zipWith]
      rw [hpdf _ (List.getElem_mem _)]
  · show (List.zipWith (fun (f : Fns) w => f.cdf x * w) _ _).sum =
      (List.zipWith (fun (f : Fns) w => f.cdf x * w) _ ((flatWeights cs ws).map (· / (flatWeights cs ws).sum))).sum
    rw [ht, flat_sum (fun f => f.cdf x) ws.sum cs ws hc hw.len, List.zipWith_map_left]
    rfl

private theorem foldr_least : ∀ {l : List EReal}, l ≠ [] → IsLeast {e | e ∈ l} (l.foldr min ⊤)
  | [], h => absurd rfl h
  | [a], _ => by simp [IsLeast, lowerBounds]
  | a :: b :: l, _ => by
    obtain ⟨h1, h2⟩ := foldr_least (l := b :: l) (by simp)
    rw [List.foldr_cons]
    constructor
    · rcases min_choice a ((b :: l).foldr min ⊤) with h | h <;> rw [h]
      · simp
      · exact List.mem_cons_of_mem _ h1
    · intro e he
      rcases List.mem_cons.1 he with rfl | he
      · exact min_le_left _ _
      · exact (min_le_right _ _).trans (h2 he)

private theorem foldr_greatest : ∀ {l : List EReal}, l ≠ [] → IsGreatest {e | e ∈ l} (l.foldr max ⊥)
  | [], h => absurd rfl h
  | [a], _ => by simp [IsGreatest, upperBounds]
  | a :: b :: l, _ => by
    obtain ⟨h1, h2⟩ := foldr_greatest (l := b :: l) (by simp)
    rw [List.foldr_cons]
    constructor
    · rcases max_choice a ((b :: l).foldr max ⊥) with h | h <;> rw [h]
      · simp
      · exact List.mem_cons_of_mem _ h1
    · intro e he
      rcases List.mem_cons.1 he with rfl | he
      · exact le_max_left _ _
      · exact (h2 he).trans (le_max_right _ _)

/-- C147: the support of a Mixture reaches from the least lower end to the greatest upper end of its components. -/
theorem nest_mix_support (d : Bool) (p : ℝ → Option EReal) (fs : List Fns) (ws : List ℝ) (h : fs ≠ []) :
    IsLeast {e | ∃ f ∈ fs, f.lo = e} (mixF d p fs ws).lo ∧ IsGreatest {e | ∃ f ∈ fs, f.hi = e} (mixF d p fs ws).hi := by
  constructor
  · have := foldr_least (l := fs.map Fns.lo) (by simpa using h)
    simp only [List.mem_map] at this
    exact this
  · have := foldr_greatest (l := fs.map Fns.hi) (by simpa using h)
    simp only [List.mem_map] at this
    exact this

/-- C147: a Mixture of Mixtures has the support of one Mixture of all the components. -/
theorem nest_mix_mix_support (d : Bool) (p : ℝ → Option EReal) (cs : List (List Fns × List ℝ)) (ws vs : List ℝ) (h : cs ≠ [])
    (hc : ∀ c ∈ cs, c.1 ≠ []) :
    (mixF d p (cs.map fun c => mixF d p c.1 c.2) ws).lo = (mixF d p (cs.map Prod.fst).flatten vs).lo ∧
      (mixF d p (cs.map fun c => mixF d p c.1 c.2) ws).hi = (mixF d p (cs.map Prod.fst).flatten vs).hi := by
  obtain ⟨⟨a1, a2⟩, ⟨b1, b2⟩⟩ := nest_mix_support d p (cs.map fun c => mixF d p c.1 c.2) ws (by simpa using h)
  have hne : (cs.map Prod.fst).flatten ≠ [] := by
    obtain ⟨c, hcm⟩ := List.exists_mem_of_ne_nil cs h
    obtain ⟨f, hf⟩ := List.exists_mem_of_ne_nil c.1 (hc c hcm)
    exact List.ne_nil_of_mem (List.mem_flatten.2 ⟨c.1, List.mem_map_of_mem hcm, hf⟩)
  obtain ⟨hL, hG⟩ := nest_mix_support d p (cs.map Prod.fst).flatten vs hne
  constructor
  · refine IsLeast.unique ⟨?_, ?_⟩ hL
    · obtain ⟨g, hg, e⟩ := a1
      obtain ⟨c, hcm, rfl⟩ := List.mem_map.1 hg
      obtain ⟨f, hf, e'⟩ := (nest_mix_support d p c.1 c.2 (hc c hcm)).1.1
      exact ⟨f, List.mem_flatten.2 ⟨c.1, List.mem_map_of_mem hcm, hf⟩, e'.trans e⟩
    · rintro e ⟨f, hf, rfl⟩
      obtain ⟨l, hl, hfl⟩ := List.mem_flatten.1 hf
      obtain ⟨c, hcm, rfl⟩ := List.mem_map.1 hl
      exact (a2 ⟨_, List.mem_map_of_mem hcm, rfl⟩).trans ((nest_mix_support d p c.1 c.2 (hc c hcm)).1.2 ⟨f, hfl, rfl⟩)
  · refine IsGreatest.unique ⟨?_, ?_⟩ hG
    · obtain ⟨g, hg, e⟩ := b1
      obtain ⟨c, hcm, rfl⟩ := List.mem_map.1 hg
      obtain ⟨f, hf, e'⟩ := (nest_mix_support d p c.1 c.2 (hc c hcm)).2.1
      exact ⟨f, List.mem_flatten.2 ⟨c.1, List.mem_map_of_mem hcm, hf⟩, e'.trans e⟩
    · rintro e ⟨f, hf, rfl⟩
      obtain ⟨l, hl, hfl⟩ := List.mem_flatten.1 hf
      obtain ⟨c, hcm, rfl⟩ := List.mem_map.1 hl
      exact ((nest_mix_support d p c.1 c.2 (hc c hcm)).2.2 ⟨f, hfl, rfl⟩).trans (b2 ⟨_, List.mem_map_of_mem hcm, rfl⟩)

/-- C147: a Mixture of truncated distributions has the cdf of the weighted sum of the truncated laws. -/
theorem nest_mix_trunc (d : Bool) (p : ℝ → Option EReal) (cs : List (Base × EReal × EReal)) (ws : List ℝ)
    (h : GoodWeights cs.length ws) (hl : ∀ c ∈ cs, c.1.discrete = true → Whole c.2.1)
    (hm : ∀ c ∈ cs, 0 < c.1.law.real (between c.2.1 c.2.2)) (x : ℝ) :
    (mixF d p (cs.map fun c => truncF c.2.1 c.2.2 (ofBase c.1)) ws).cdf x =
      (mixLaw (cs.map fun c => truncLaw c.1.law c.2.1 c.2.2) ws).real (Set.Iic x) := by
  let Bs : List Base := cs.attach.map fun c => nestBase c.1.1 c.1.2.1 c.1.2.2 (hl c.1 c.2) (hm c.1 c.2)
  have hlaw : Bs.map Base.law = cs.map fun c => truncLaw c.1.law c.2.1 c.2.2 := by
    rw [List.map_map]
    exact List.attach_map_val (l := cs) (f := fun c => truncLaw c.1.law c.2.1 c.2.2)
  have hlen : Bs.length = cs.length := by simp [Bs]
  rw [← hlaw, ← mixture_cdf Bs ws (hlen ▸ h)]
  show (List.zipWith (fun (f : Fns) w => f.cdf x * w) _ _).sum = (List.zipWith (fun (b : Base) w => b.cdf x * w) _ _).sum
  congr 1
  apply List.ext_getElem
  · simp [hlen]
  · intro n h1 h2
    simp only [List.getElem_zipWith, List.getElem_map, Bs, List.getElem_attach]
    congr 1
    exact (agrees_trunc (agrees_base _) (hl _ (List.getElem_mem _)) (hm _ (List.getElem_mem _))).cdf x

/-! ## The hypotheses are met -/

private theorem dice_hurdle (n : ℕ) (hn : 0 < n) : HurdleBase (dice n) := by
  classical
  refine ⟨diceLaw_ae n _ fun k _ => by positivity, ?_⟩
  show 0 < (diceLaw n).real _
  rw [diceLaw_real]
  refine Finset.sum_pos' (fun k _ => by split <;> positivity) ⟨1, by simp [hn], ?_⟩
  rw [if_pos (by simp)]
  positivity

/-- `Truncated(Hurdle(die on {0, 1, 2}, 0.5))`: the probabilities add up to two -/
example : HasSum (fun k : ℤ => (truncF ⊥ ⊤ (hurdleF (1 / 2) (ofBase (dice 2)))).pdf (k : ℝ)) 2 := by
  have := (nest_trunc_hurdle_sum (dice 2) rfl (dice_hurdle 2 (by norm_num)) (1 / 2) (by norm_num) (by norm_num)).1
  norm_num at this ⊢
  exact this

/-- `Truncated(Hurdle(die on {0, …, 5}, 0.3), 1, 4)` is `Truncated(die, 1, 4)` -/
example : truncF ((1 : ℝ) : EReal) ((4 : ℝ) : EReal) (hurdleF (3 / 10) (ofBase (dice 5))) =
    truncF ((1 : ℝ) : EReal) ((4 : ℝ) : EReal) (ofBase (dice 5)) := by
  classical
  apply nest_trunc_hurdle (dice 5) _ (by norm_num) (by norm_num)
  · exact_mod_cast one_pos
  · exact fun _ => Or.inr (Or.inr ⟨1, by norm_num⟩)
  · intro h; exact absurd h (by simp [dice, discreteBase])
  · show 0 < (diceLaw 5).real _
    rw [diceLaw_real]
    norm_num [Finset.sum_range_succ, between]

/-- `Hurdle(Hurdle(die on {0, …, 5}, 0.2), 0.7)` is `Hurdle(die, 0.7)` -/
example : hurdleF (7 / 10) (hurdleF (2 / 10) (ofBase (dice 5))) = hurdleF (7 / 10) (ofBase (dice 5)) := by
  apply nest_hurdle_twice _ _ _ (by norm_num) (by norm_num) (by norm_num)
  show (dice 5).cdf _ < 1
  have h1 := hurdle_tail (dice 5)
  have h2 := (dice_hurdle 5 (by norm_num)).pos
  rw [hurdle_eps_discrete _ rfl]
  linarith

/-- `Mixture` of a truncated die on {1, 2} and a die on {0, …, 5}: the support is from 0 to 5 -/
example : (mixF true (fun _ => none) [truncF ((1 : ℝ) : EReal) ((2 : ℝ) : EReal) (ofBase (dice 5)), ofBase (dice 5)] [1, 1]).lo = 0 := by
  refine (nest_mix_support true _ _ _ (by simp)).1.unique ⟨⟨ofBase (dice 5), by simp, rfl⟩, ?_⟩
  rintro e ⟨f, hf, rfl⟩
  simp only [List.mem_cons, List.not_mem_nil, or_false] at hf
  rcases hf with rfl | rfl
  · exact le_max_left (0 : EReal) _
  · exact le_rfl

/-- `Mixture([Mixture([d0, d1], [1, 1]), Mixture([d2], [5])], [1, 3])`: the weights of d0, d1, d2 are as 1/2 : 1/2 : 3 -/
example (f0 f1 f2 : Fns) (p : ℝ → Option EReal) : ∃ vs, GoodWeights 3 vs ∧ vs[0]? = some (1 / 2) ∧ vs[2]? = some 3 ∧
    ∀ x : ℝ, mixPdfF [mixF true p [f0, f1] [1, 1], mixF true p [f2] [5]] [1, 3] x = mixPdfF [f0, f1, f2] vs x := by
  obtain ⟨vs, h1, h2, h3⟩ := nest_mix_mix true p [([f0, f1], [1, 1]), ([f2], [5])] [1, 3]
    (by
      intro c hc
      simp only [List.mem_cons, List.not_mem_nil, or_false] at hc
      rcases hc with rfl | rfl <;> exact ⟨by simp, by simp, by norm_num⟩)
    ⟨by simp, by simp, by norm_num⟩
  refine ⟨vs, by simpa using h1, ?_, ?_, fun x => by simpa using (h3 x).1⟩
  · have := h2 0 _ 1 rfl rfl 0 1 rfl
    norm_num at this ⊢
    exact this
  · have := h2 1 _ 3 rfl rfl 0 5 rfl
    norm_num at this
    exact this

end Verif.Props
