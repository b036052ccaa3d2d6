import Verif.Model.MomentsMore
import Mathlib.Analysis.SpecialFunctions.Gamma.BohrMollerup
import Mathlib.Analysis.Real.Pi.Bounds

/-!
# C78: moment matching for HalfStudentT, ExGaussian and mixtures
-/

namespace Verif.Props
open Verif Verif.MomentsMore Verif.Modifier

/-- textbook mean of the absolute value of a Student t variable with scale `sigma` -/
noncomputable def halfTMean (nu sigma : ℝ) : ℝ :=
  2 * sigma * Real.sqrt (nu / Real.pi) * Real.Gamma ((nu + 1) / 2) / (Real.Gamma (nu / 2) * (nu - 1))

/-- its second moment, that of the Student t variable -/
noncomputable def halfTSecond (nu sigma : ℝ) : ℝ := sigma ^ 2 * nu / (nu - 2)

/-- its variance -/
noncomputable def halfTVar (nu sigma : ℝ) : ℝ := halfTSecond nu sigma - halfTMean nu sigma ^ 2

/-- `Γ` is log-convex: `Γ(x)² ≤ Γ(x - 1/2) Γ(x + 1/2)` -/
private theorem gamma_mid {x : ℝ} (h : 1 / 2 < x) :
    Real.Gamma x ^ 2 ≤ Real.Gamma (x - 1 / 2) * Real.Gamma (x + 1 / 2) := by
  have h1 := Real.Gamma_mul_add_mul_le_rpow_Gamma_mul_rpow_Gamma (s := x - 1 / 2) (t := x + 1 / 2) (a := 1 / 2)
    (b := 1 / 2) (by linarith) (by linarith) (by norm_num) (by norm_num) (by norm_num)
  have h2 : (1 / 2 : ℝ) * (x - 1 / 2) + 1 / 2 * (x + 1 / 2) = x := by ring
  rw [h2, ← Real.sqrt_eq_rpow, ← Real.sqrt_eq_rpow] at h1
  have g0 := Real.Gamma_pos_of_pos (by linarith : 0 < x)
  have g1 := Real.Gamma_pos_of_pos (by linarith : 0 < x - 1 / 2)
  have g2 := Real.Gamma_pos_of_pos (by linarith : 0 < x + 1 / 2)
  calc Real.Gamma x ^ 2 ≤ (Real.sqrt (Real.Gamma (x - 1 / 2)) * Real.sqrt (Real.Gamma (x + 1 / 2))) ^ 2 :=
        pow_le_pow_left₀ g0.le h1 2
    _ = _ := by rw [mul_pow, Real.sq_sqrt g1.le, Real.sq_sqrt g2.le]

/-- the variance of a half-Student variable is positive -/
private theorem factor_pos {n : ℝ} (hn : 2 < n) :
    0 < n / (n - 2) - 4 * n / (Real.pi * (n - 1) ^ 2) * (Real.Gamma ((n + 1) / 2) / Real.Gamma (n / 2)) ^ 2 := by
  have e0 : Real.Gamma ((n + 1) / 2) = (n - 1) / 2 * Real.Gamma ((n - 1) / 2) := by
    rw [← Real.Gamma_add_one (by linarith)]; congr 1; ring
  have e1 : Real.Gamma (n / 2) = (n - 2) / 2 * Real.Gamma ((n - 2) / 2) := by
    rw [← Real.Gamma_add_one (by linarith)]; congr 1; ring
  have hm := gamma_mid (x := (n - 1) / 2) (by linarith)
  have i1 : (n - 1) / 2 - 1 / 2 = (n - 2) / 2 := by ring
  have i2 : (n - 1) / 2 + 1 / 2 = n / 2 := by ring
  rw [i1, i2] at hm
  set a := Real.Gamma ((n - 1) / 2) with ha
  have hapos : 0 < a := Real.Gamma_pos_of_pos (by linarith)
  have hgn : 0 < Real.Gamma (n / 2) := Real.Gamma_pos_of_pos (by linarith)
  have hg2 : 0 < Real.Gamma ((n - 2) / 2) := Real.Gamma_pos_of_pos (by linarith)
  rw [e0]
  have hpi := Real.pi_gt_three
  set g := Real.Gamma (n / 2) with hg
  have key : a ^ 2 * ((n - 2) / 2) ≤ g ^ 2 := by
    calc a ^ 2 * ((n - 2) / 2) ≤ (Real.Gamma ((n - 2) / 2) * g) * ((n - 2) / 2) :=
          mul_le_mul_of_nonneg_right hm (by linarith)
      _ = g ^ 2 := by rw [sq, e1]; ring
  have hrw : n / (n - 2) - 4 * n / (Real.pi * (n - 1) ^ 2) * ((n - 1) / 2 * a / g) ^ 2 =
      n / (n - 2) / (Real.pi * g ^ 2) * (Real.pi * g ^ 2 - a ^ 2 * (n - 2)) := by
    have : n - 1 ≠ 0 := by linarith
    have : n - 2 ≠ 0 := by linarith
    field_simp
    ring
  rw [hrw]
  have : 0 < n - 2 := by linarith
  have h3 : 0 < Real.pi * g ^ 2 - a ^ 2 * (n - 2) := by
    have : 0 < g ^ 2 := by positivity
    nlinarith
  positivity

private theorem var_eq {n s : ℝ} (hn : 2 < n) : halfTVar n s =
    s ^ 2 * (n / (n - 2) - 4 * n / (Real.pi * (n - 1) ^ 2) * (Real.Gamma ((n + 1) / 2) / Real.Gamma (n / 2)) ^ 2) := by
  unfold halfTVar halfTSecond halfTMean
  have h1 : 0 ≤ n / Real.pi := by have := Real.pi_pos; positivity
  have hg : Real.Gamma (n / 2) ≠ 0 := (Real.Gamma_pos_of_pos (by linarith)).ne'
  have : n - 1 ≠ 0 := by linarith
  have : n - 2 ≠ 0 := by linarith
  have hp := Real.pi_ne_zero
  rw [div_pow, mul_pow, mul_pow, Real.sq_sqrt h1]
  field_simp
  ring

/-- C78: given nu above 2, and without nu, moment matching keeps nu (without: 100) and gives a positive scale with
exactly the requested deviation, when the gamma function is exact. -/
theorem half_student_moments (nu : Option ℝ) (hnu : ∀ n, nu = some n → 2 < n) {sigma : ℝ} (hs : 0 < sigma) :
    let r := halfStudentTMoments (fun x => some (Real.Gamma x)) nu sigma
    r.1 = nu.getD 100 ∧ 0 < r.2 ∧ halfTVar r.1 r.2 = sigma ^ 2 := by
  have hc : chosenNu nu = nu.getD 100 := by
    cases nu with
    | none => rfl
    | some n =>
      have := hnu n rfl
      simp only [chosenNu, Option.getD_some]
      rw [if_neg (by linarith)]
  have h2 : 2 < nu.getD 100 := by
    cases nu with
    | none => norm_num
    | some n => exact hnu n rfl
  unfold halfStudentTMoments
  dsimp only
  rw [hc]
  have hp := factor_pos h2
  refine ⟨rfl, Real.sqrt_pos.2 (by positivity), ?_⟩
  rw [var_eq h2, Real.sq_sqrt (by positivity), div_mul_cancel₀ _ hp.ne']

/-- C78: when the gamma function overflows the scale is that of the half-normal distribution of the same deviation. -/
theorem half_student_overflow (gamma : ℝ → Option ℝ) (nu : Option ℝ) (sigma : ℝ)
    (hg : gamma ((chosenNu nu + 1) / 2) = none ∨ gamma (chosenNu nu / 2) = none) :
    (halfStudentTMoments gamma nu sigma).1 = chosenNu nu ∧
      (halfStudentTMoments gamma nu sigma).2 ^ 2 * (1 - 2 / Real.pi) = sigma ^ 2 := by
  have hp : 0 < 1 - 2 / Real.pi := by
    have := Real.pi_gt_three
    rw [sub_pos, div_lt_one Real.pi_pos]
    linarith
  have e : halfStudentTMoments gamma nu sigma = (chosenNu nu, sigma / Real.sqrt (1 - 2 / Real.pi)) := by
    unfold halfStudentTMoments
    rcases hg with h | h
    · simp only [h]
    · simp only [h]
      split <;> simp_all
  rw [e]
  refine ⟨rfl, ?_⟩
  rw [div_pow, Real.sq_sqrt hp.le, div_mul_cancel₀ _ hp.ne']

/-- C78: with nu at most 2, for which no scale has a finite deviation, the parameter the user gave is replaced. -/
theorem half_student_nu_replaced (nu sigma : ℝ) (h : nu ≤ 2) (gamma : ℝ → Option ℝ) :
    (halfStudentTMoments gamma (some nu) sigma).1 = 2.1 := by
  unfold halfStudentTMoments
  dsimp only
  have : chosenNu (some nu) = 2.1 := by simp only [chosenNu]; rw [if_pos h]
  rw [this]
  split <;> rfl

/-- nu = 4, deviation 3 -/
example : let r := halfStudentTMoments (fun x => some (Real.Gamma x)) (some 4) 3
    r.1 = 4 ∧ 0 < r.2 ∧ halfTVar r.1 r.2 = 3 ^ 2 :=
  half_student_moments (some 4) (by intro n h; cases h; norm_num) (by norm_num)

example : (halfStudentTMoments (fun x => some (Real.Gamma x)) (some 1) 3).1 = 2.1 :=
  half_student_nu_replaced 1 3 (by norm_num) _

/-- C78: the ExGaussian that is built has a mean larger by 1e-4 and a variance larger by 1e-8 than requested (mean and
variance are those of a sum of a normal and an exponential variable of mean nu). -/
theorem exgaussian_moments (mean sigma : ℝ) :
    let r := exGaussianMoments mean sigma
    r.1 + r.2.2 = mean + 1e-4 ∧ r.2.1 ^ 2 + r.2.2 ^ 2 = sigma ^ 2 + 1e-8 := by
  unfold exGaussianMoments
  refine ⟨rfl, ?_⟩
  norm_num

/-! ## Mixtures -/

variable {C : Type}

/-- textbook mean of a mixture -/
noncomputable def lawMean (mean : C → ℝ) (cs : List C) (ws : List ℝ) : ℝ := ((cs.zip ws).map fun p => p.2 * mean p.1).sum

/-- textbook variance of a mixture: the mean of the squared distances from the mean -/
noncomputable def lawVar (mean var : C → ℝ) (cs : List C) (ws : List ℝ) : ℝ :=
  ((cs.zip ws).map fun p => p.2 * (var p.1 + (mean p.1 - lawMean mean cs ws) ^ 2)).sum

private theorem zip_replicate_sum (cs : List C) (n : ℕ) (hn : cs.length = n) (w v : ℝ) (f : C → ℝ)
    (hf : ∀ c ∈ cs, f c = v) : ((cs.zip (List.replicate n w)).map fun p => p.2 * f p.1).sum = n * (w * v) := by
  induction cs generalizing n with
  | nil => simp at hn; subst hn; simp
  | cons c cs ih =>
    obtain ⟨m, rfl⟩ : ∃ m, n = m + 1 := ⟨cs.length, by simpa using hn.symm⟩
    rw [List.replicate_succ, List.zip_cons_cons, List.map_cons, List.sum_cons,
      ih m (by simpa using hn) fun c hc => hf c (by simp [hc]), hf c (by simp)]
    push_cast
    ring

/-- C78: when every component can be given the requested mean and deviation, so is the mixture; its weights are equal
and sum to one, and it is marked as completely specified. -/
theorem mixture_moments (mean var : C → ℝ) (fit : ℝ → ℝ → C → C) (m s : ℝ) (mix : Mix C) (hne : mix.comps ≠ [])
    (hfit : ∀ c ∈ mix.comps, mean (fit m s c) = m ∧ var (fit m s c) = s ^ 2) :
    let r := mix.fitMoments fit m s
    r.frozen = true ∧ ∃ ws, r.weights = some ws ∧ ws.length = r.comps.length ∧ (∀ w ∈ ws, 0 < w) ∧ ws.sum = 1 ∧
      lawMean mean r.comps ws = m ∧ lawVar mean var r.comps ws = s ^ 2 := by
  have hn : 0 < mix.comps.length := List.length_pos_iff.2 hne
  have hn' : (0 : ℝ) < (mix.comps.length : ℝ) := by exact_mod_cast hn
  have hmean : ∀ c ∈ mix.comps.map (fit m s), mean c = m := by
    intro c hc
    obtain ⟨d, hd, rfl⟩ := List.mem_map.1 hc
    exact (hfit d hd).1
  have hvar : ∀ c ∈ mix.comps.map (fit m s), var c = s ^ 2 := by
    intro c hc
    obtain ⟨d, hd, rfl⟩ := List.mem_map.1 hc
    exact (hfit d hd).2
  have hm : lawMean mean (mix.comps.map (fit m s)) (mixFitWeights mix.comps.length) = m := by
    unfold lawMean mixFitWeights
    rw [zip_replicate_sum _ _ (by simp) _ m mean hmean]
    field_simp
  refine ⟨rfl, mixFitWeights mix.comps.length, rfl, by simp [Mix.fitMoments, mixFitWeights], ?_, ?_, hm, ?_⟩
  · intro w hw
    rw [mixFitWeights, List.mem_replicate] at hw
    rw [hw.2]
    positivity
  · rw [mixFitWeights, List.sum_replicate]
    simp only [nsmul_eq_mul]
    field_simp
  · change lawVar mean var (mix.comps.map (fit m s)) (mixFitWeights mix.comps.length) = s ^ 2
    unfold lawVar
    rw [hm]
    unfold mixFitWeights
    rw [zip_replicate_sum _ _ (by simp) _ (s ^ 2) (fun c => var c + (mean c - m) ^ 2) (by
      intro c hc
      rw [hmean c hc, hvar c hc]
      ring)]
    field_simp

/-- C78: a mixture is frozen exactly when every parameter of every component and the weights are given. -/
theorem mixture_frozen (params : C → List (Option ℝ)) (cs : List C) (ws : Option (List ℝ)) :
    (Mix.make params cs ws).frozen = true ↔ (∀ c ∈ cs, ∀ p ∈ params c, p ≠ none) ∧ ws ≠ none := by
  simp only [Mix.make, Bool.and_eq_true, List.all_eq_true, List.mem_flatMap, forall_exists_index, and_imp,
    Option.isSome_iff_ne_none]
  constructor
  · rintro ⟨h1, h2⟩
    exact ⟨fun c hc p hp => h1 p c hc hp, h2⟩
  · rintro ⟨h1, h2⟩
    exact ⟨fun p c hc hp => h1 c hc p hp, h2⟩

/-- C78: the weights the user gave are not kept, unless they are all equal. -/
theorem mixture_weights_lost (params : C → List (Option ℝ)) (cs : List C) (ws : List ℝ) (fit : ℝ → ℝ → C → C)
    (m s : ℝ) (hlen : ws.length = cs.length) {i j : ℕ} (hi : i < ws.length) (hj : j < ws.length) (hij : ws[i] ≠ ws[j])
    (hsum : 0 < ws.sum) (hf : (cs.flatMap params).all Option.isSome = true) :
    (Mix.make params cs (some ws)).weights = some (mixWeights ws) ∧
      ((Mix.make params cs (some ws)).fitMoments fit m s).weights ≠ some (mixWeights ws) := by
  constructor
  · simp [Mix.make, hf]
  · intro h
    simp only [Mix.fitMoments, Mix.make, Option.some.injEq] at h
    have h1 : (mixFitWeights cs.length)[i]? = (mixWeights ws)[i]? := by rw [h]
    have h2 : (mixFitWeights cs.length)[j]? = (mixWeights ws)[j]? := by rw [h]
    have hi' : i < cs.length := by omega
    have hj' : j < cs.length := by omega
    simp only [mixFitWeights, mixWeights, List.getElem?_replicate, hi', hj', List.getElem?_map, List.getElem?_eq_getElem hi,
      List.getElem?_eq_getElem hj, if_true, Option.map_some, Option.some.injEq] at h1 h2
    rw [h1] at h2
    exact hij (by field_simp at h2; exact h2)

/-- C78: the parameters the mixture lists are not updated: a mixture built without parameters and weights lists none of
them after the fit, although it is marked as completely specified. -/
theorem mixture_params_stale (params : C → List (Option ℝ)) (cs : List C) (fit : ℝ → ℝ → C → C) (m s : ℝ)
    (hp : ∀ c ∈ cs, ∀ p ∈ params c, p = none) :
    let r := (Mix.make params cs none).fitMoments fit m s
    r.frozen = true ∧ (∀ p ∈ r.params.1, p = none) ∧ r.params.2 = none := by
  refine ⟨rfl, ?_, rfl⟩
  intro p hpm
  obtain ⟨c, hc, hpc⟩ := List.mem_flatMap.1 hpm
  exact hp c hc p hpc

private def exParams (c : Option (ℝ × ℝ)) : List (Option ℝ) := [c.map Prod.fst, c.map Prod.snd]
private noncomputable def exMean (c : Option (ℝ × ℝ)) : ℝ := (c.map Prod.fst).getD 0
private noncomputable def exVar (c : Option (ℝ × ℝ)) : ℝ := (c.map Prod.snd).getD 0 ^ 2
private def exFit (m s : ℝ) (_ : Option (ℝ × ℝ)) : Option (ℝ × ℝ) := some (m, s)

/-- two normal components -/
example : let r := (Mix.make exParams [none, none] none).fitMoments exFit 2 3
    r.frozen = true ∧ ∃ ws, r.weights = some ws ∧ ws.length = r.comps.length ∧ (∀ w ∈ ws, 0 < w) ∧ ws.sum = 1 ∧
      lawMean exMean r.comps ws = 2 ∧ lawVar exMean exVar r.comps ws = 3 ^ 2 :=
  mixture_moments exMean exVar exFit 2 3 _ (by simp [Mix.make]) (fun _ _ => ⟨rfl, rfl⟩)

example : ((Mix.make exParams [some (0, 1), some (5, 1)] (some [1, 3])).fitMoments exFit 2 3).weights ≠
    some (mixWeights [1, 3]) :=
  (mixture_weights_lost exParams _ [1, 3] exFit 2 3 rfl (i := 0) (j := 1) (by simp) (by simp) (by norm_num) (by norm_num)
    (by simp [exParams])).2

example : let r := (Mix.make exParams [none, none] none).fitMoments exFit 2 3
    r.frozen = true ∧ (∀ p ∈ r.params.1, p = none) ∧ r.params.2 = none :=
  mixture_params_stale exParams _ exFit 2 3 (by simp [exParams])

end Verif.Props
