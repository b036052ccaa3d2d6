import Verif.Props.NestMix
import Verif.Lemmas.Sampling

/-!
# C149: modifiers around mixtures
-/

namespace Verif.Props
open Verif MeasureTheory Verif.Spec Verif.Modifier Verif.NestLaw Verif.Lemmas

/-! ## Weighted sums over the components -/

private noncomputable def wsum (fs : List Fns) (ws : List ℝ) (h : Fns → ℝ) : ℝ :=
  ((List.zip fs ws).map fun p => h p.1 * p.2).sum

private theorem wsum_congr {fs : List Fns} {ws : List ℝ} {h k : Fns → ℝ} (e : ∀ f ∈ fs, h f = k f) :
    wsum fs ws h = wsum fs ws k := by
  unfold wsum
  congr 1
  apply List.map_congr_left
  intro p hp
  rw [e _ (List.of_mem_zip hp).1]

private theorem wsum_sub (fs : List Fns) (ws : List ℝ) (h k : Fns → ℝ) :
    wsum fs ws (fun f => h f - k f) = wsum fs ws h - wsum fs ws k := by
  unfold wsum
  induction List.zip fs ws with
  | nil => simp
  | cons p ps ih => simp only [List.map_cons, List.sum_cons, ih]; ring

private theorem wsum_mul (fs : List Fns) (ws : List ℝ) (h : Fns → ℝ) (c : ℝ) :
    wsum fs ws (fun f => c * h f) = c * wsum fs ws h := by
  unfold wsum
  induction List.zip fs ws with
  | nil => simp
  | cons p ps ih => simp only [List.map_cons, List.sum_cons, ih]; ring

private theorem wsum_one {fs : List Fns} {ws : List ℝ} (h : ws.length = fs.length) : wsum fs ws (fun _ => 1) = ws.sum := by
  unfold wsum
  have : (List.zip fs ws).map (fun p => (1 : ℝ) * p.2) = (List.zip fs ws).map Prod.snd := by
    apply List.map_congr_left; intro p _; simp
  rw [this, List.map_snd_zip (by rw [h])]

private theorem sum_normal (fs : List Fns) (ws : List ℝ) (h : Fns → ℝ) :
    (List.zipWith (fun f w => h f * w) fs (mixWeights ws)).sum = wsum fs ws h / ws.sum := by
  unfold mixWeights wsum
  rw [zipWith_div]
  generalize ws.sum = s
  induction List.zip fs ws with
  | nil => simp
  | cons p ps ih => simp only [List.map_cons, List.sum_cons, ih]; ring

/-- the weights changed by a factor that depends on the component -/
private theorem wsum_scaled (D h : Fns → ℝ) : ∀ (fs : List Fns) (ws : List ℝ),
    wsum fs (List.zipWith (fun f w => w * D f) fs ws) h = wsum fs ws (fun f => h f * D f)
  | [], _ => by simp [wsum]
  | _ :: _, [] => by simp [wsum]
  | f :: fs, w :: ws => by
    have := wsum_scaled D h fs ws
    unfold wsum at this ⊢
    simp only [List.zipWith_cons_cons, List.zip_cons_cons, List.map_cons, List.sum_cons, this]
    ring

private theorem scaled_sum {D : Fns → ℝ} {fs : List Fns} {ws : List ℝ} (h : ws.length = fs.length) :
    (List.zipWith (fun f w => w * D f) fs ws).sum = wsum fs ws D := by
  rw [← wsum_one (fs := fs) (by simp [h]), wsum_scaled]
  apply wsum_congr; simp

private theorem wsum_pos (D : Fns → ℝ) : ∀ {fs : List Fns} {ws : List ℝ}, GoodWeights fs.length ws → (∀ f ∈ fs, 0 < D f) →
    0 < wsum fs ws D := by
  intro fs ws hg hD
  have hz : ∀ p ∈ List.zip fs ws, 0 ≤ p.2 ∧ 0 < D p.1 := fun p hp =>
    ⟨hg.nonneg _ (List.of_mem_zip hp).2, hD _ (List.of_mem_zip hp).1⟩
  have hs : 0 < ((List.zip fs ws).map Prod.snd).sum := by
    rw [List.map_snd_zip (by rw [hg.len])]; exact hg.pos
  unfold wsum
  generalize List.zip fs ws = ps at hz hs
  have key : 0 ≤ (ps.map fun p => D p.1 * p.2).sum ∧ (0 < (ps.map Prod.snd).sum → 0 < (ps.map fun p => D p.1 * p.2).sum) := by
    clear hs
    induction ps with
    | nil => simp
    | cons p ps ih =>
      obtain ⟨i1, i2⟩ := ih fun q hq => hz q (by simp [hq])
      obtain ⟨z1, z2⟩ := hz p (by simp)
      simp only [List.map_cons, List.sum_cons]
      refine ⟨by positivity, fun h => ?_⟩
      rcases eq_or_lt_of_le z1 with e | e
      · rw [← e] at h ⊢
        have := i2 (by simpa using h)
        simpa using this
      · have := mul_pos z2 e
        linarith
  exact key.2 hs

private theorem scaled_good {D : Fns → ℝ} {fs : List Fns} {ws : List ℝ} (hg : GoodWeights fs.length ws)
    (hD : ∀ f ∈ fs, 0 < D f) (g : Fns → Fns) :
    GoodWeights (fs.map g).length (List.zipWith (fun f w => w * D f) fs ws) := by
  refine ⟨by simp [hg.len], ?_, by rw [scaled_sum hg.len]; exact wsum_pos D hg hD⟩
  intro w hw
  rw [← List.map_uncurry_zip_eq_zipWith] at hw
  obtain ⟨p, hp, rfl⟩ := List.mem_map.1 hw
  exact mul_nonneg (hg.nonneg _ (List.of_mem_zip hp).2) (hD _ (List.of_mem_zip hp).1).le

private theorem mixcdf (d : Bool) (p : ℝ → Option EReal) (fs : List Fns) (ws : List ℝ) (x : EReal) :
    (mixF d p fs ws).cdf x = wsum fs ws (fun f => f.cdf x) / ws.sum :=
  sum_normal fs ws fun f => f.cdf x

private theorem wsum_map (g : Fns → Fns) (h : Fns → ℝ) (fs : List Fns) (ws : List ℝ) :
    wsum (fs.map g) ws h = wsum fs ws fun f => h (g f) := by
  unfold wsum
  rw [List.zip_map_left, List.map_map]
  rfl

private theorem scaled_mix {D : Fns → ℝ} {fs : List Fns} {ws : List ℝ} (hg : GoodWeights fs.length ws) (g : Fns → Fns)
    (h : Fns → ℝ) :
    (List.zipWith (fun f w => h f * w) (fs.map g) (mixWeights (List.zipWith (fun f w => w * D f) fs ws))).sum =
      wsum fs ws (fun f => h (g f) * D f) / wsum fs ws D := by
  rw [sum_normal, scaled_sum hg.len, wsum_map, wsum_scaled D (fun f => h (g f))]

private theorem trunc_pdf' (f : Fns) (l u : EReal) (hD : 0 < f.cdf u - f.cdf (adjustLower f.discrete l)) (x : ℝ) :
    (truncF l u f).pdf x = if (x : EReal) < l ∨ (x : EReal) > u then 0 else
      f.pdf x / (f.cdf u - f.cdf (adjustLower f.discrete l)) := by
  show expOf (if (x : EReal) < l ∨ (x : EReal) > u then none else (f.logpdf x).map fun v =>
    v - Real.log (f.cdf u - f.cdf (adjustLower f.discrete l))) = _
  by_cases h : (x : EReal) < l ∨ (x : EReal) > u
  · rw [if_pos h, if_pos h]; rfl
  · rw [if_neg h, if_neg h, Fns.pdf]
    cases f.logpdf x with
    | none => simp [expOf]
    | some v => simp only [Option.map_some, expOf, Real.exp_sub, Real.exp_log hD]

/-- C149: a Truncated around a Mixture has the density and the cdf of the Mixture of the truncated components, each weighted
with its weight times its probability of the interval. -/
theorem nest_trunc_mix_parts (d : Bool) (p p' : ℝ → Option EReal) (fs : List Fns) (ws : List ℝ) (l u : EReal)
    (hg : GoodWeights fs.length ws) (hk : ∀ f ∈ fs, f.discrete = d)
    (hD : ∀ f ∈ fs, 0 < f.cdf u - f.cdf (adjustLower d l)) :
    GoodWeights fs.length (List.zipWith (fun f w => w * (f.cdf u - f.cdf (adjustLower d l))) fs ws) ∧
    (∀ x : ℝ, (truncF l u (mixF d p fs ws)).pdf x =
      (mixF d p' (fs.map (truncF l u)) (List.zipWith (fun f w => w * (f.cdf u - f.cdf (adjustLower d l))) fs ws)).pdf x) ∧
    ∀ x : EReal, (truncF l u (mixF d p fs ws)).cdf x =
      (mixF d p' (fs.map (truncF l u)) (List.zipWith (fun f w => w * (f.cdf u - f.cdf (adjustLower d l))) fs ws)).cdf x := by
  set D : Fns → ℝ := fun f => f.cdf u - f.cdf (adjustLower d l) with hDdef
  have hW := hg.pos
  have hT : 0 < wsum fs ws D := wsum_pos D hg hD
  have hG := scaled_good hg hD (truncF l u)
  have hgap : (mixF d p fs ws).cdf u - (mixF d p fs ws).cdf (adjustLower d l) = wsum fs ws D / ws.sum := by
    rw [mixcdf, mixcdf, ← sub_div, ← wsum_sub]
  refine ⟨by simpa using hG, fun x => ?_, fun x => ?_⟩
  · rw [trunc_pdf' _ l u (by
      show 0 < (mixF d p fs ws).cdf u - (mixF d p fs ws).cdf (adjustLower d l)
      rw [hgap]; positivity), nest_mix_pdf _ _ _ _ hG, nest_mix_pdf _ _ _ _ hg]
    show (if _ then _ else _ / ((mixF d p fs ws).cdf u - (mixF d p fs ws).cdf (adjustLower d l))) = _
    unfold mixPdfF
    rw [hgap, scaled_mix hg (truncF l u) (fun f => f.pdf x), sum_normal fs ws fun f => f.pdf x]
    have e : wsum fs ws (fun f => (truncF l u f).pdf x * D f) =
        wsum fs ws (fun f => if (x : EReal) < l ∨ (x : EReal) > u then 0 else f.pdf x) := by
      apply wsum_congr
      intro f hf
      rw [trunc_pdf' f l u (by rw [hk f hf]; exact hD f hf), hk f hf]
      split
      · simp
      · exact div_mul_cancel₀ _ (hD f hf).ne'
    rw [e]
    by_cases h : (x : EReal) < l ∨ (x : EReal) > u
    · simp only [if_pos h]
      have : wsum fs ws (fun _ => (0 : ℝ)) = 0 := by simp [wsum]
      rw [this, zero_div]
    · simp only [if_neg h]
      change wsum fs ws (fun f => f.pdf x) / ws.sum / (wsum fs ws D / ws.sum) = _ / wsum fs ws D
      field_simp
  · have hR : (mixF d p' (fs.map (truncF l u)) (List.zipWith (fun f w => w * D f) fs ws)).cdf x =
        wsum fs ws (fun f => (truncF l u f).cdf x * D f) / wsum fs ws D :=
      scaled_mix hg (truncF l u) (fun f => f.cdf x)
    rw [hR]
    have e : wsum fs ws (fun f => (truncF l u f).cdf x * D f) =
        wsum fs ws (fun f => if x < adjustLower d l then 0 else if x > u then D f else f.cdf x - f.cdf (adjustLower d l)) := by
      apply wsum_congr
      intro f hf
      have := (hD f hf).ne'
      show (if x < adjustLower f.discrete l then (0 : ℝ) else if x > u then 1 else
        (f.cdf x - f.cdf (adjustLower f.discrete l)) / (f.cdf u - f.cdf (adjustLower f.discrete l))) * D f = _
      rw [hk f hf]
      split
      · simp
      · split
        · simp
        · exact div_mul_cancel₀ _ this
    rw [e]
    show (if x < adjustLower d l then (0 : ℝ) else if x > u then 1 else
        ((mixF d p fs ws).cdf x - (mixF d p fs ws).cdf (adjustLower d l)) /
          ((mixF d p fs ws).cdf u - (mixF d p fs ws).cdf (adjustLower d l))) = _
    by_cases h1 : x < adjustLower d l
    · simp only [if_pos h1]
      have : wsum fs ws (fun _ => (0 : ℝ)) = 0 := by simp [wsum]
      rw [this, zero_div]
    · by_cases h2 : x > u
      · simp only [if_neg h1, if_pos h2]
        rw [div_self hT.ne']
      · simp only [if_neg h1, if_neg h2]
        rw [hgap, mixcdf, mixcdf, ← sub_div, ← wsum_sub]
        field_simp

/-- C149: a Censored around a Mixture, with bounds inside the supports of all components, has the density and the cdf of the
Mixture of the censored components with the same weights. -/
theorem nest_cens_mix_parts (d : Bool) (p p' : ℝ → Option EReal) (fs : List Fns) (ws : List ℝ) (l u : EReal)
    (hg : GoodWeights fs.length ws) (hk : ∀ f ∈ fs, f.discrete = d) (hlo : ∀ f ∈ fs, f.lo ≤ l) (hhi : ∀ f ∈ fs, u ≤ f.hi)
    (h0 : ∀ f ∈ fs, ∀ x, 0 ≤ f.cdf x ∧ f.cdf x ≤ 1) :
    (∀ x : ℝ, (censF l u (mixF d p fs ws)).pdf x = (mixF d p' (fs.map (censF l u)) ws).pdf x) ∧
      ∀ x : EReal, (censF l u (mixF d p fs ws)).cdf x = (mixF d p' (fs.map (censF l u)) ws).cdf x := by
  have hne : fs ≠ [] := by
    rintro rfl
    have h1 := hg.len
    have h2 := hg.pos
    simp only [List.length_nil, List.length_eq_zero_iff] at h1
    rw [h1] at h2
    simp at h2
  obtain ⟨⟨⟨fl, hfl, el⟩, -⟩, ⟨⟨fu, hfu, eu⟩, -⟩⟩ := nest_mix_support d p fs ws hne
  have hL : max (mixF d p fs ws).lo l = l := max_eq_right (el ▸ hlo fl hfl)
  have hU : min (mixF d p fs ws).hi u = u := min_eq_right (eu ▸ hhi fu hfu)
  have hg' : GoodWeights (fs.map (censF l u)).length ws := by simpa using hg
  have hW := hg.pos
  have hone : ∀ h : Fns → ℝ, 1 - wsum fs ws h / ws.sum = wsum fs ws (fun f => 1 - h f) / ws.sum := by
    intro h
    rw [wsum_sub, wsum_one hg.len, sub_div, div_self hW.ne']
  have hmixpos : ∀ h : Fns → ℝ, (∀ f ∈ fs, 0 ≤ h f) → 0 ≤ wsum fs ws h / ws.sum := by
    intro h hh
    refine div_nonneg (List.sum_nonneg ?_) hW.le
    intro y hy
    obtain ⟨q, hq, rfl⟩ := List.mem_map.1 hy
    exact mul_nonneg (hh _ (List.of_mem_zip hq).1) (hg.nonneg _ (List.of_mem_zip hq).2)
  have elog : ∀ {v : ℝ}, 0 ≤ v → expOf (logOf v) = v := by
    intro v hv
    unfold logOf expOf
    by_cases h : v = 0
    · simp [h]
    · simp only [h, if_false]; exact Real.exp_log (lt_of_le_of_ne hv (Ne.symm h))
  -- the density of a censored object
  have hpdf : ∀ g : Fns, g.discrete = d → max g.lo l = l → min g.hi u = u → 0 ≤ g.cdf l →
      g.cdf u ≤ 1 → g.cdf (u - 1) ≤ 1 → ∀ x : ℝ, (censF l u g).pdf x =
        if (x : EReal) = u then 1 - g.cdf (if d then u - 1 else u) else if (x : EReal) = l then g.cdf l else
          if (x : EReal) < l ∨ (x : EReal) > u then 0 else g.pdf x := by
    intro g e1 e2 e3 h1 h2 h3 x
    unfold Fns.pdf censF
    dsimp only
    rw [e1, e2, e3]
    cases d
    · simp only [Bool.false_eq_true, if_false]
      split
      · exact elog (by linarith)
      · split
        · exact elog h1
        · split
          · rfl
          · rfl
    · simp only [if_true]
      split
      · exact elog (by linarith)
      · split
        · exact elog h1
        · split
          · rfl
          · rfl
  constructor
  · intro x
    rw [nest_mix_pdf _ _ _ _ hg']
    unfold mixPdfF
    rw [sum_normal _ _ fun f => f.pdf x, wsum_map, hpdf _ rfl hL hU]
    · have e : wsum fs ws (fun f => (censF l u f).pdf x) = wsum fs ws (fun f =>
          if (x : EReal) = u then 1 - f.cdf (if d then u - 1 else u) else if (x : EReal) = l then f.cdf l else
          if (x : EReal) < l ∨ (x : EReal) > u then 0 else f.pdf x) :=
        wsum_congr fun f hf => hpdf f (hk f hf) (max_eq_right (hlo f hf)) (min_eq_right (hhi f hf)) (h0 f hf _).1
          (h0 f hf _).2 (h0 f hf _).2 x
      rw [e]
      by_cases a1 : (x : EReal) = u
      · simp only [if_pos a1]
        rw [mixcdf, hone]
      · by_cases a2 : (x : EReal) = l
        · simp only [if_neg a1, if_pos a2]
          exact mixcdf _ _ _ _ _
        · by_cases a3 : (x : EReal) < l ∨ (x : EReal) > u
          · simp only [if_neg a1, if_neg a2, if_pos a3]
            simp [wsum]
          · simp only [if_neg a1, if_neg a2, if_neg a3]
            rw [nest_mix_pdf _ _ _ _ hg]
            exact sum_normal _ _ fun f => f.pdf x
    · rw [mixcdf]; exact hmixpos _ fun f hf => (h0 f hf _).1
    · rw [mixcdf]
      have := hmixpos (fun f => 1 - f.cdf u) fun f hf => sub_nonneg.2 (h0 f hf _).2
      rw [← hone fun f => f.cdf u] at this
      linarith
    · rw [mixcdf]
      have := hmixpos (fun f => 1 - f.cdf (u - 1)) fun f hf => sub_nonneg.2 (h0 f hf _).2
      rw [← hone fun f => f.cdf (u - 1)] at this
      linarith
  · intro x
    have hR : (mixF d p' (fs.map (censF l u)) ws).cdf x = wsum fs ws (fun f => (censF l u f).cdf x) / ws.sum := by
      rw [mixcdf, wsum_map]
    have e : wsum fs ws (fun f => (censF l u f).cdf x) =
        wsum fs ws (fun f => if x < l then 0 else if x > u then 1 else f.cdf x) := by
      apply wsum_congr
      intro f hf
      show (if x < max f.lo l then (0 : ℝ) else if x > min f.hi u then 1 else f.cdf x) = _
      rw [max_eq_right (hlo f hf), min_eq_right (hhi f hf)]
    rw [hR, e]
    show (if x < max (mixF d p fs ws).lo l then (0 : ℝ) else if x > min (mixF d p fs ws).hi u then 1 else
      (mixF d p fs ws).cdf x) = _
    rw [hL, hU]
    by_cases h1 : x < l
    · simp only [if_pos h1]; simp [wsum]
    · by_cases h2 : x > u
      · simp only [if_neg h1, if_pos h2]
        rw [wsum_one hg.len, div_self hW.ne']
      · simp only [if_neg h1, if_neg h2]
        exact mixcdf _ _ _ _ _

/-- C149: a Hurdle around a Mixture has the density and the cdf of the Mixture of the components inside Hurdles, each weighted
with its weight times its probability above machine precision. -/
theorem nest_hurdle_mix_parts (d : Bool) (p p' : ℝ → Option EReal) (fs : List Fns) (ws : List ℝ) (psi : ℝ) (h0 : 0 ≤ psi)
    (h1 : psi ≤ 1) (hg : GoodWeights fs.length ws) (hD : ∀ f ∈ fs, f.cdf ((eps : ℝ) : EReal) < 1) :
    (∀ x : ℝ, (hurdleF psi (mixF d p fs ws)).pdf x = (mixF d p' (fs.map (hurdleF psi))
      (List.zipWith (fun f w => w * (1 - f.cdf ((eps : ℝ) : EReal))) fs ws)).pdf x) ∧
    ∀ x : EReal, (hurdleF psi (mixF d p fs ws)).cdf x = (mixF d p' (fs.map (hurdleF psi))
      (List.zipWith (fun f w => w * (1 - f.cdf ((eps : ℝ) : EReal))) fs ws)).cdf x := by
  set D : Fns → ℝ := fun f => 1 - f.cdf ((eps : ℝ) : EReal) with hDdef
  have hD' : ∀ f ∈ fs, 0 < D f := fun f hf => sub_pos.2 (hD f hf)
  have hW := hg.pos
  have hT : 0 < wsum fs ws D := wsum_pos D hg hD'
  have hG := scaled_good hg hD' (hurdleF psi)
  have hone : ∀ h : Fns → ℝ, 1 - wsum fs ws h / ws.sum = wsum fs ws (fun f => 1 - h f) / ws.sum := by
    intro h
    rw [wsum_sub, wsum_one hg.len, sub_div, div_self hW.ne']
  have htail : 1 - (mixF d p fs ws).cdf ((eps : ℝ) : EReal) = wsum fs ws D / ws.sum := by
    rw [mixcdf, hone]
  have hconst : ∀ c : ℝ, wsum fs ws (fun f => c * D f) / wsum fs ws D = c := by
    intro c
    rw [wsum_mul, mul_div_assoc, div_self hT.ne', mul_one]
  constructor
  · intro x
    have hlt : (mixF d p fs ws).cdf ((eps : ℝ) : EReal) < 1 := by
      have : 0 < wsum fs ws D / ws.sum := by positivity
      linarith
    rw [nest_hurdle_pdf _ _ h0 h1 hlt, nest_mix_pdf _ _ _ _ hG]
    have e1 : mixPdfF (fs.map (hurdleF psi)) (List.zipWith (fun f w => w * D f) fs ws) x =
        wsum fs ws (fun f => (hurdleF psi f).pdf x * D f) / wsum fs ws D :=
      scaled_mix hg (hurdleF psi) (fun f => f.pdf x)
    have e2 : wsum fs ws (fun f => (hurdleF psi f).pdf x * D f) =
        wsum fs ws (fun f => if x = 0 then (1 - psi) * D f else psi * f.pdf x) := by
      apply wsum_congr
      intro f hf
      rw [nest_hurdle_pdf _ _ h0 h1 (hD f hf), hurdlePdfF]
      split
      · rfl
      · exact div_mul_cancel₀ _ (hD' f hf).ne'
    rw [e1, e2, hurdlePdfF, htail]
    by_cases hx : x = 0
    · simp only [if_pos hx]
      rw [hconst]
    · simp only [if_neg hx]
      rw [wsum_mul, nest_mix_pdf _ _ _ _ hg]
      unfold mixPdfF
      rw [sum_normal _ _ fun f => f.pdf x]
      field_simp
  · intro x
    have e1 : (mixF d p' (fs.map (hurdleF psi)) (List.zipWith (fun f w => w * D f) fs ws)).cdf x =
        wsum fs ws (fun f => (hurdleF psi f).cdf x * D f) / wsum fs ws D :=
      scaled_mix hg (hurdleF psi) (fun f => f.cdf x)
    rw [e1]
    by_cases hx : x ≤ 0
    · have e2 : wsum fs ws (fun f => (hurdleF psi f).cdf x * D f) = wsum fs ws (fun f => (1 - psi) * D f) := by
        apply wsum_congr
        intro f _
        simp only [hurdleF, if_pos hx]
      rw [e2, hconst]
      simp only [hurdleF, if_pos hx]
    · have e2 : wsum fs ws (fun f => (hurdleF psi f).cdf x * D f) =
          wsum fs ws (fun f => D f - psi * (1 - f.cdf x)) := by
        apply wsum_congr
        intro f hf
        have := (hD' f hf).ne'
        show (if x ≤ 0 then 1 - psi else 1 - psi * (1 - f.cdf x) / D f) * D f = _
        rw [if_neg hx]
        field_simp
      rw [e2, wsum_sub, wsum_mul]
      show (if x ≤ 0 then 1 - psi else 1 - psi * (1 - (mixF d p fs ws).cdf x) /
        (1 - (mixF d p fs ws).cdf ((eps : ℝ) : EReal))) = _
      rw [if_neg hx, htail, mixcdf, hone]
      field_simp

/-! ## The laws -/

private theorem mix_ae {bs : List Base} {ws : List ℝ} {P : ℝ → Prop} (h : ∀ b ∈ bs, ∀ᵐ y ∂b.law, P y) :
    ∀ᵐ y ∂mixLaw (bs.map Base.law) ws, P y := by
  rw [ae_iff, mixLaw_pairs, list_sum_apply _ (fun w => ENNReal.ofReal (w / ws.sum))]
  apply List.sum_eq_zero
  intro v hv
  obtain ⟨q, hq, rfl⟩ := List.mem_map.1 hv
  rw [ae_iff.1 (h _ (List.of_mem_zip hq).1), mul_zero]

/-- a Mixture as a distribution that can be wrapped -/
private noncomputable def mixBase (bs : List Base) (ws : List ℝ) (d : Bool) (hg : GoodWeights bs.length ws)
    (hk : ∀ b ∈ bs, b.discrete = d) (hne : bs.map ofBase ≠ []) : Base where
  law := mixLaw (bs.map Base.law) ws
  prob := ⟨by
    have := mixture_proper bs ws hg
    rw [measureReal_def] at this
    rw [← ENNReal.toReal_eq_one_iff, this]⟩
  discrete := d
  lo := (mixF d (fun _ => none) (bs.map ofBase) ws).lo
  hi := (mixF d (fun _ => none) (bs.map ofBase) ws).hi
  pdf := mixPdf bs ws
  ppf := quantile (mixLaw (bs.map Base.law) ws)
  pdf_nonneg := fun x => by
    unfold mixPdf
    rw [zipWith_eq_map]
    apply List.sum_nonneg
    intro v hv
    obtain ⟨q, hq, rfl⟩ := List.mem_map.1 hv
    exact mul_nonneg (q.1.pdf_nonneg x) ((mixture_weights ws _ hg).2.1 _ (List.of_mem_zip hq).2)
  in_support := by
    obtain ⟨hl, hu⟩ := nest_mix_support d (fun _ => none) (bs.map ofBase) ws hne
    apply mix_ae
    intro b hb
    filter_upwards [b.in_support] with y hy
    exact ⟨(hl.2 ⟨ofBase b, List.mem_map_of_mem hb, rfl⟩).trans hy.1,
      hy.2.trans (hu.2 ⟨ofBase b, List.mem_map_of_mem hb, rfl⟩)⟩
  discrete_law := fun hd => ⟨mix_ae fun b hb => (b.discrete_law ((hk b hb).trans hd)).1,
    mixture_mass bs ws hg fun b hb => (hk b hb).trans hd⟩
  continuous_law := fun hd => by
    have h := mixture_density bs ws hg fun b hb => (hk b hb).trans hd
    refine ⟨?_, h.2⟩
    have e : mixPdf bs ws = fun x => ((List.zip bs ws).map fun p => p.1.pdf x * (p.2 / ws.sum)).sum := by
      ext x; unfold mixPdf mixWeights; rw [zipWith_div]
    rw [e]
    have hz : ∀ p ∈ List.zip bs ws, Measurable p.1.pdf := fun p hp =>
      (p.1.continuous_law ((hk _ (List.of_mem_zip hp).1).trans hd)).1
    generalize List.zip bs ws = ps at hz
    clear e h
    induction ps with
    | nil => simp
    | cons p ps ih =>
      simp only [List.map_cons, List.sum_cons]
      exact ((hz p (by simp)).mul_const _).add (ih fun q hq => hz q (by simp [hq]))
  ppf_inverse := fun q _ _ x => by
    have : IsProbabilityMeasure (mixLaw (bs.map Base.law) ws) := ⟨by
      have := mixture_proper bs ws hg
      rw [measureReal_def] at this
      rw [← ENNReal.toReal_eq_one_iff, this]⟩
    exact quantile_spec _ q x

private theorem agrees_mix (bs : List Base) (ws : List ℝ) (d : Bool) (hg : GoodWeights bs.length ws)
    (hk : ∀ b ∈ bs, b.discrete = d) (hne : bs.map ofBase ≠ []) :
    Agrees (mixF d (fun q => some (quantile (mixLaw (bs.map Base.law) ws) q)) (bs.map ofBase) ws)
      (mixBase bs ws d hg hk hne) := by
  refine ⟨rfl, rfl, rfl, fun x => ?_, fun x => ?_, fun q _ _ => rfl⟩
  · show _ = logOf (mixPdf bs ws x)
    rw [← mixture_logpdf bs ws hg x]
    unfold mixF mixLogpdf
    dsimp only
    rw [List.zipWith_map_left]
    rfl
  · show (List.zipWith (fun (f : Fns) w => f.cdf x * w) (bs.map ofBase) (mixWeights ws)).sum =
      (mixLaw (bs.map Base.law) ws).real _
    rw [mixLaw_real bs ws _ hg, List.zipWith_map_left]
    unfold mixWeights
    rw [zipWith_div]
    rfl

/-- C149: a Truncated around a Mixture follows the law of the mixture conditioned on the interval: mass or density function,
cdf at every point and, if the ppf of the Mixture returns quantiles, ppf. -/
theorem nest_trunc_mix (bs : List Base) (ws : List ℝ) (d : Bool) (p : ℝ → Option EReal) (l u : EReal)
    (hg : GoodWeights bs.length ws) (hk : ∀ b ∈ bs, b.discrete = d) (hl : d = true → Whole l) (μ : Measure ℝ)
    (hμ : μ = mixLaw (bs.map Base.law) ws) (hm : 0 < μ.real (between l u)) (f : Fns)
    (hf : f = truncF l u (mixF d p (bs.map ofBase) ws)) :
    (d = true → IsPmf (truncLaw μ l u) f.pdf) ∧ (d = false → IsDensity volume (truncLaw μ l u) f.pdf) ∧
    (∀ x : EReal, f.cdf x = (truncLaw μ l u).real {y : ℝ | (y : EReal) ≤ x}) ∧
    ((∀ q, 0 < q → q ≤ 1 → ∃ Q, p q = some Q ∧ IsQuantile μ q Q) →
      ∀ q, 0 < q → q ≤ 1 → ∃ Q, f.ppf q = some Q ∧ IsQuantile (truncLaw μ l u) q Q) := by
  subst hμ
  have hne : bs.map ofBase ≠ [] := by
    intro h
    have h0 : bs = [] := by simpa using h
    subst h0
    have h1 := hg.len
    have h2 := hg.pos
    simp only [List.length_nil, List.length_eq_zero_iff] at h1
    rw [h1] at h2
    simp at h2
  have hA := agrees_mix bs ws d hg hk hne
  set B := mixBase bs ws d hg hk hne
  have hT := agrees_trunc hA (l := l) (u := u) hl hm
  obtain ⟨hC, -⟩ := agrees_computes hT
  rw [hf]
  refine ⟨fun h => hC.pmf h, fun h => hC.density h, hC.cdf, fun hp q h0 h1 => ?_⟩
  obtain ⟨Q, e, hQ⟩ := hC.ppf q h0 h1
  refine ⟨Q, ?_, hQ⟩
  rw [← e]
  have hpq : ∀ q, 0 < q → q ≤ 1 → p q = some (quantile (mixLaw (bs.map Base.law) ws) q) := by
    intro q h0 h1
    have := B.prob
    obtain ⟨R, e1, e2⟩ := hp q h0 h1
    have : IsProbabilityMeasure (mixLaw (bs.map Base.law) ws) := this
    rw [e1, quantile_unique e2 (quantile_spec _ q)]
  have hΔ := B.mass_total hl hm
  have hlow := B.cdf_nonneg (adjustLower B.discrete l)
  have hup := B.cdf_le_one u
  have hq0 : 0 < B.cdf (adjustLower B.discrete l) + q * (B.cdf u - B.cdf (adjustLower B.discrete l)) := by
    rw [← hΔ]; have : 0 < B.law.real (between l u) := hm; positivity
  have hq1 : B.cdf (adjustLower B.discrete l) + q * (B.cdf u - B.cdf (adjustLower B.discrete l)) ≤ 1 := by
    rw [← hΔ]; have : 0 < B.law.real (between l u) := hm; nlinarith
  set g := mixF d (fun q => some (quantile (mixLaw (bs.map Base.law) ws) q)) (bs.map ofBase) ws
  show (if q < 0 ∨ q > 1 then none else p (g.cdf (adjustLower d l) + q * (g.cdf u - g.cdf (adjustLower d l)))) =
    if q < 0 ∨ q > 1 then none else some (quantile (mixLaw (bs.map Base.law) ws)
      (g.cdf (adjustLower d l) + q * (g.cdf u - g.cdf (adjustLower d l))))
  rw [hA.cdf, hA.cdf]
  have := hpq _ hq0 hq1
  change p (B.cdf (adjustLower d l) + q * (B.cdf u - B.cdf (adjustLower d l))) = _ at this
  rw [this]
  rfl

/-! ## The hypotheses are met -/

/-- `Truncated(Mixture([die on {0, …, 5}, die on {0, 1, 2}], [1, 3]), 1, 2)`: the weights of the truncated dice are
1 · 1/3 and 3 · 2/3 -/
example (p p' : ℝ → Option EReal) (x : ℝ) :
    (truncF ((1 : ℝ) : EReal) ((2 : ℝ) : EReal) (mixF true p [ofBase (dice 5), ofBase (dice 2)] [1, 3])).pdf x =
      (mixF true p' [truncF ((1 : ℝ) : EReal) ((2 : ℝ) : EReal) (ofBase (dice 5)),
        truncF ((1 : ℝ) : EReal) ((2 : ℝ) : EReal) (ofBase (dice 2))] [1 * (1 / 3), 3 * (2 / 3)]).pdf x := by
  classical
  have hD : ∀ n : ℕ, 2 ≤ n → (dice n).cdf ((2 : ℝ) : EReal) - (dice n).cdf (adjustLower true ((1 : ℝ) : EReal)) = 2 / (n + 1) := by
    intro n hn
    have e : adjustLower true ((1 : ℝ) : EReal) = ((0 : ℝ) : EReal) := by
      simp only [adjustLower, if_true]
      rw [← EReal.coe_one, ← EReal.coe_sub, sub_self]
    rw [e, Base.cdf_coe, Base.cdf_coe]
    have r : ∀ k : ℕ, k ≤ n → (dice n).law.real (Set.Iic (k : ℝ)) = (k + 1) / ((n : ℝ) + 1) := by
      intro k hk
      show (diceLaw n).real _ = _
      rw [diceLaw_real, ← Finset.sum_filter]
      have : (Finset.range (n + 1)).filter (fun j : ℕ => (j : ℝ) ∈ Set.Iic (k : ℝ)) = Finset.range (k + 1) := by
        ext j; simp only [Finset.mem_filter, Finset.mem_range, Set.mem_Iic, Nat.cast_le]; omega
      rw [this, Finset.sum_const, Finset.card_range, nsmul_eq_mul]
      push_cast; ring
    have r2 := r 2 hn
    have r0 := r 0 (by omega)
    push_cast at r2 r0
    rw [r2, r0]
    ring
  have := (nest_trunc_mix_parts true p p' [ofBase (dice 5), ofBase (dice 2)] [1, 3] ((1 : ℝ) : EReal) ((2 : ℝ) : EReal)
    ⟨rfl, by simp, by norm_num⟩ (by simp [ofBase, dice, discreteBase])
    (by
      intro f hf
      simp only [List.mem_cons, List.not_mem_nil, or_false] at hf
      rcases hf with rfl | rfl
      · show 0 < (dice 5).cdf _ - (dice 5).cdf _
        rw [hD 5 (by norm_num)]; norm_num
      · show 0 < (dice 2).cdf _ - (dice 2).cdf _
        rw [hD 2 (by norm_num)]; norm_num)).2.1 x
  have h5 : (ofBase (dice 5)).cdf ((2 : ℝ) : EReal) - (ofBase (dice 5)).cdf (adjustLower true ((1 : ℝ) : EReal)) = 1 / 3 := by
    have := hD 5 (by norm_num)
    norm_num at this ⊢
    exact this
  have h2 : (ofBase (dice 2)).cdf ((2 : ℝ) : EReal) - (ofBase (dice 2)).cdf (adjustLower true ((1 : ℝ) : EReal)) = 2 / 3 := by
    have := hD 2 (by norm_num)
    norm_num at this ⊢
    exact this
  simp only [List.zipWith_cons_cons, List.zipWith_nil_left, List.map_cons, List.map_nil, h5, h2] at this
  exact this

/-- `Truncated(Mixture([Uniform(0, 1), Uniform(0, 2)], [1, 1]), 0.5, 3)` -/
example (p : ℝ → Option EReal) : IsDensity volume
    (truncLaw (mixLaw [(unif 0 1 one_pos).law, (unif 0 2 two_pos).law] [1, 1]) ((1 / 2 : ℝ) : EReal) ((3 : ℝ) : EReal))
    (truncF ((1 / 2 : ℝ) : EReal) ((3 : ℝ) : EReal)
      (mixF false p [ofBase (unif 0 1 one_pos), ofBase (unif 0 2 two_pos)] [1, 1])).pdf := by
  refine (nest_trunc_mix [unif 0 1 one_pos, unif 0 2 two_pos] [1, 1] false p _ _ ⟨rfl, by simp, by norm_num⟩
    (by simp [unif, densityBase]) (by simp) _ rfl ?_ _ rfl).2.1 rfl
  rw [mixLaw_real [unif 0 1 one_pos, unif 0 2 two_pos] [1, 1] _ ⟨rfl, by simp, by norm_num⟩]
  have e : between ((1 / 2 : ℝ) : EReal) ((3 : ℝ) : EReal) = Set.Icc (1 / 2) 3 := by
    ext y; simp only [between, Set.mem_ofPred_eq, Set.mem_Icc, EReal.coe_le_coe_iff]
  simp only [List.zip_cons_cons, List.zip_nil_left, List.map_cons, List.map_nil, List.sum_cons, List.sum_nil, e]
  rw [unif_real _ _ _ _ measurableSet_Icc, unif_real _ _ _ _ measurableSet_Icc, Set.Icc_inter_Icc, Set.Icc_inter_Icc,
    measureReal_def, measureReal_def, Real.volume_Icc, Real.volume_Icc, ENNReal.toReal_ofReal (by norm_num),
    ENNReal.toReal_ofReal (by norm_num)]
  norm_num

/-- `Censored(Mixture([die on {0, …, 5}, die on {0, …, 3}], [1, 3]), 1, 2)` -/
example (p p' : ℝ → Option EReal) (x : ℝ) :
    (censF ((1 : ℝ) : EReal) ((2 : ℝ) : EReal) (mixF true p [ofBase (dice 5), ofBase (dice 3)] [1, 3])).pdf x =
      (mixF true p' [censF ((1 : ℝ) : EReal) ((2 : ℝ) : EReal) (ofBase (dice 5)),
        censF ((1 : ℝ) : EReal) ((2 : ℝ) : EReal) (ofBase (dice 3))] [1, 3]).pdf x := by
  refine (nest_cens_mix_parts true p p' [ofBase (dice 5), ofBase (dice 3)] [1, 3] _ _ ⟨rfl, by simp, by norm_num⟩
    (by simp [ofBase, dice, discreteBase]) ?_ ?_ ?_).1 x
  all_goals
    intro f hf
    simp only [List.mem_cons, List.not_mem_nil, or_false] at hf
  · rcases hf with rfl | rfl <;> exact (by exact_mod_cast zero_le_one : (0 : EReal) ≤ ((1 : ℝ) : EReal))
  · rcases hf with rfl | rfl
    · show _ ≤ (((5 : ℕ) : ℝ) : EReal); rw [EReal.coe_le_coe_iff]; norm_num
    · show _ ≤ (((3 : ℕ) : ℝ) : EReal); rw [EReal.coe_le_coe_iff]; norm_num
  · rcases hf with rfl | rfl <;> exact fun x => ⟨Base.cdf_nonneg _ x, Base.cdf_le_one _ x⟩

/-- `Hurdle(Mixture([Uniform(0, 1), Uniform(0, 2)], [1, 1]), 0.3)` -/
example (p p' : ℝ → Option EReal) : ∀ x : EReal,
    (hurdleF (3 / 10) (mixF false p [ofBase (unif 0 1 one_pos), ofBase (unif 0 2 two_pos)] [1, 1])).cdf x =
      (mixF false p' ([ofBase (unif 0 1 one_pos), ofBase (unif 0 2 two_pos)].map (hurdleF (3 / 10)))
        (List.zipWith (fun f w => w * (1 - f.cdf ((eps : ℝ) : EReal))) [ofBase (unif 0 1 one_pos), ofBase (unif 0 2 two_pos)]
          [1, 1])).cdf x := by
  have key : ∀ (b : ℝ) (hb : 0 < b), 1 ≤ b → (unif 0 b hb).cdf ((eps : ℝ) : EReal) < 1 := by
    intro b hb h1
    have he : eps < 1 := by unfold eps; norm_num
    have he0 := eps_pos
    rw [Base.cdf_coe, unif_real _ _ _ _ measurableSet_Iic]
    have : Set.Iic eps ∩ Set.Icc 0 b = Set.Icc 0 eps := by
      ext y; simp only [Set.mem_inter_iff, Set.mem_Iic, Set.mem_Icc]
      constructor
      · rintro ⟨a, c, -⟩; exact ⟨c, a⟩
      · rintro ⟨a, c⟩; exact ⟨c, a, by linarith⟩
    rw [this, measureReal_def, Real.volume_Icc, ENNReal.toReal_ofReal (by linarith), div_lt_one (by linarith)]
    linarith
  refine (nest_hurdle_mix_parts false p p' _ [1, 1] (3 / 10) (by norm_num) (by norm_num) ⟨rfl, by simp, by norm_num⟩ ?_).2
  intro f hf
  simp only [List.mem_cons, List.not_mem_nil, or_false] at hf
  rcases hf with rfl | rfl
  · exact key 1 one_pos le_rfl
  · exact key 2 two_pos one_le_two

end Verif.Props
