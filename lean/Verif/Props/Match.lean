import Verif.Model.Match
import Mathlib.Tactic

/-!
# C53: match_moments aims at the moments the user named
-/

set_option linter.unusedSimpArgs false

namespace Verif.Props
open Verif Verif.Match

/-- the moment a letter stands for, by the documentation -/
def Named (d : Moments) : Char → Option ℝ
  | 'm' => d.mean
  | 'v' => d.var
  | 'd' => d.std
  | 's' => d.skew
  | 'k' => d.kurt
  | _ => none

/-- the letters -/
def IsMoment (c : Char) : Prop := c = 'm' ∨ c = 'v' ∨ c = 'd' ∨ c = 's' ∨ c = 'k'

private theorem letter_ok (d : Moments) (c : Char) (h : IsMoment c) : d.letter c = .ok (Named d c) := by
  rcases h with rfl | rfl | rfl | rfl | rfl <;> simp [Moments.letter, Named]

private theorem letter_bad (d : Moments) (c : Char) (h : ¬ IsMoment c) : d.letter c = .error .valueError := by
  unfold IsMoment at h
  push Not at h
  simp [Moments.letter, h]

/-- `moments` gives the named moments in the order of the letters; any other letter is rejected. -/
theorem moments_in_order (d : Moments) (types : List Char) :
    ((∀ c ∈ types, IsMoment c) → d.moments types = .ok (types.map (Named d))) ∧
    ((∃ c ∈ types, ¬ IsMoment c) → d.moments types = .error .valueError) := by
  induction types with
  | nil => simp [Moments.moments]
  | cons c cs ih =>
    constructor
    · intro h
      simp [Moments.moments, letter_ok d c (h c List.mem_cons_self),
        ih.1 fun x hx => h x (List.mem_cons_of_mem _ hx)]
    · rintro ⟨x, hx, hb⟩
      by_cases hc : IsMoment c
      · have : ∃ x ∈ cs, ¬ IsMoment x := by
          rcases List.mem_cons.1 hx with rfl | hx
          · exact absurd hc hb
          · exact ⟨x, hx, hb⟩
        simp [Moments.moments, letter_ok d c hc, ih.2 this]
      · simp [Moments.moments, letter_bad d c hc]

/-- The `i`-th target is the moment of `from_dist` named by the `i`-th letter, for distributions. -/
theorem match_targets_dist (d : Moments) (types : List Char) (h : ∀ c ∈ types, IsMoment c)
    (hf : ∃ c ∈ types, (Named d c).isSome) : targets types (.dist true d) = .ok (types.map (Named d)) := by
  simp only [targets, (moments_in_order d types).1 h, Except.ok_bind']
  rw [if_pos]
  obtain ⟨c, hc, hs⟩ := hf
  simp only [List.any_map, List.any_eq_true]
  exact ⟨c, hc, hs⟩

/-- Rejected: unfinished distributions, letters that name no moment, and requests without any finite moment -/
theorem match_targets_rejects (d : Moments) (types : List Char) :
    targets types (.dist false d) = .error .valueError ∧
    ((∃ c ∈ types, ¬ IsMoment c) → targets types (.dist true d) = .error .valueError) ∧
    ((∀ c ∈ types, Named d c = none) → targets types (.dist true d) = .error .valueError) := by
  refine ⟨by simp [targets], fun h => by simp [targets, (moments_in_order d types).2 h], fun h => ?_⟩
  by_cases hm : ∀ c ∈ types, IsMoment c
  · simp only [targets, (moments_in_order d types).1 hm, Except.ok_bind']
    rw [if_neg]
    simp only [List.any_map, List.any_eq_true, not_exists, not_and]
    intro c hc
    simp [h c hc]
  · push Not at hm
    simp [targets, (moments_in_order d types).2 hm]

/-- negation: a requested moment that is not finite is accepted next to a finite one -/
theorem match_accepts_nonfinite :
    targets ['m', 'v'] (.dist true ⟨some 0, none, none, none, none⟩) = .ok [some 0, none] := by
  simp [targets, Moments.moments, Moments.letter]

/-! ## Arrays -/

/-- the average of a function of the data -/
noncomputable def average (f : ℝ → ℝ) (data : List ℝ) : ℝ := (data.map f).sum / (data.length : ℝ)

/-- the moments of data, by the textbook: population versions, excess kurtosis -/
noncomputable def dataMoments (data : List ℝ) : Moments :=
  let m := average id data
  let v := average (fun x => (x - m) ^ 2) data
  { mean := some m, var := some v, std := some √v,
    skew := if v = 0 then none else some (average (fun x => ((x - m) / √v) ^ 3) data),
    kurt := if v = 0 then none else some (average (fun x => ((x - m) / √v) ^ 4) data - 3) }

private theorem arrMean_map (f : ℝ → ℝ) (data : List ℝ) (h : data ≠ []) :
    arrMean (data.map f) = some (average f data) := by
  simp [arrMean, average, h]

private theorem arr_values (data : List ℝ) (h : data ≠ []) :
    arrMean data = (dataMoments data).mean ∧ arrVar data = (dataMoments data).var ∧
    arrStd data = (dataMoments data).std ∧ arrStandard data 3 = (dataMoments data).skew ∧
    (arrStandard data 4).map (· - 3) = (dataMoments data).kurt := by
  have hm : arrMean data = some (average id data) := by
    have := arrMean_map id data h; simpa using this
  have hv : arrVar data = some (average (fun x => (x - average id data) ^ 2) data) := by
    simp only [arrVar, hm, Option.bind_some, arrMean_map _ data h]
  have hs : arrStd data = some √(average (fun x => (x - average id data) ^ 2) data) := by
    simp [arrStd, hv]
  have h0 : 0 ≤ average (fun x => (x - average id data) ^ 2) data := by
    apply div_nonneg _ (by positivity)
    apply List.sum_nonneg
    intro y hy
    obtain ⟨x, -, rfl⟩ := List.mem_map.1 hy
    positivity
  have hz : ∀ p, arrStandard data p =
      if average (fun x => (x - average id data) ^ 2) data = 0 then none
      else some (average (fun x => ((x - average id data) /
        √(average (fun x => (x - average id data) ^ 2) data)) ^ p) data) := by
    intro p
    simp only [arrStandard, hm, hs, Option.bind_some, Real.sqrt_eq_zero h0, arrMean_map _ data h]
  refine ⟨hm, hv, hs, hz 3, ?_⟩
  rw [hz 4]
  simp only [dataMoments]
  split_ifs <;> rfl

/-- For an array, letters in the order `m`, `v`, `d`, `s` (each at most once) give the named moments. -/
theorem match_targets_array_partial (data : List ℝ) (h : data ≠ []) (types : List Char)
    (ht : types.Sublist ['m', 'v', 'd', 's']) (h1 : types ≠ []) (hs : types = ['s'] → (dataMoments data).skew.isSome) :
    targets types (.array data) = .ok (types.map (Named (dataMoments data))) := by
  obtain ⟨hm, hv, hd, hsk, -⟩ := arr_values data h
  have hmem : types ∈ (['m', 'v', 'd', 's'] : List Char).sublists := List.mem_sublists.2 ht
  have e1 : (dataMoments data).mean.isSome := rfl
  have e2 : (dataMoments data).var.isSome := rfl
  have e3 : (dataMoments data).std.isSome := rfl
  simp [List.sublists] at hmem
  rcases hmem with rfl | rfl | rfl | rfl | rfl | rfl | rfl | rfl | rfl | rfl | rfl | rfl | rfl | rfl | rfl | rfl <;>
    simp_all [targets, arrayTargets, Named]

/-- what the array targets are in general: one target per kind of moment, in a fixed order -/
theorem match_targets_array_order (data : List ℝ) (types types' : List Char) (h : ∀ c, c ∈ types ↔ c ∈ types') :
    targets types (.array data) = targets types' (.array data) := by
  simp [targets, arrayTargets, h]

/-- negation: for an array, "vm" aims at (mean, variance), not at (variance, mean) -/
theorem match_array_order_ignored :
    targets ['v', 'm'] (.array [0, 4]) = .ok [some 2, some 4] ∧
    (['v', 'm'].map (Named (dataMoments [0, 4]))) = [some 4, some 2] := by
  have hm : arrMean [0, 4] = some 2 := by rw [arrMean, if_neg (by simp)]; norm_num
  have hv : arrVar [0, 4] = some 4 := by
    simp only [arrVar, hm, Option.bind_some]; rw [arrMean, if_neg (by simp)]; norm_num
  constructor
  · simp [targets, arrayTargets, hm, hv]
  · norm_num [Named, dataMoments, average]

/-- negation: for every array with two different values the "k" target is 3 larger than the kurtosis that
distributions report -/
theorem match_array_kurtosis (data : List ℝ) (h : data ≠ []) (k : ℝ) (hk : (dataMoments data).kurt = some k) :
    targets ['k'] (.array data) = .ok [some (k + 3)] := by
  obtain ⟨-, -, -, -, h4⟩ := arr_values data h
  rw [hk] at h4
  obtain ⟨r, hr, h4⟩ := Option.map_eq_some_iff.1 h4
  have : r = k + 3 := by linarith
  simp [targets, arrayTargets, hr, this]

/-- the minimised objective is zero exactly at a match -/
theorem match_objective (vals target : List ℝ) (h : vals.length = target.length) :
    0 ≤ objective vals target ∧ (objective vals target = 0 ↔ vals = target) := by
  induction vals generalizing target with
  | nil =>
    have : target = [] := by simpa using h.symm
    simp [objective, this]
  | cons a vals ih =>
    cases target with
    | nil => simp at h
    | cons b target =>
      obtain ⟨i1, i2⟩ := ih target (by simpa using h)
      have e : objective (a :: vals) (b :: target) = (a - b) ^ 2 + objective vals target := by
        simp [objective]
      rw [e]
      refine ⟨by positivity, ?_⟩
      constructor
      · intro h0
        have ha : (a - b) ^ 2 = 0 := by nlinarith [sq_nonneg (a - b)]
        have hb : objective vals target = 0 := by nlinarith [sq_nonneg (a - b)]
        rw [i2.1 hb, sub_eq_zero.1 (pow_eq_zero_iff (by norm_num) |>.1 ha)]
      · intro h0
        injection h0 with h1 h2
        rw [i2.2 h2, h1]; simp

/-- The final check is silent exactly if every requested value is within a relative distance of 1e-4 of its
target (relative to the target shifted by 1e-6). -/
theorem match_silent_iff (target requested : List ℝ) (h : ∀ t ∈ target, t + 1e-6 ≠ 0) :
    warns target requested = false ↔
      ∀ p ∈ requested.zip target, |p.1 - p.2| ≤ 1e-4 * |p.2 + 1e-6| := by
  simp only [warns, List.any_eq_false, decide_eq_true_eq, not_lt]
  refine forall₂_congr fun p hp => ?_
  have h0 := abs_pos.2 (h p.2 (List.of_mem_zip hp).2)
  rw [abs_mul, abs_div, div_mul_eq_mul_div, div_le_iff₀ h0]
  norm_num
  constructor <;> intro h <;> linarith

/-- examples: a request whose hypotheses hold, and a value the check reports -/
example : targets ['m', 's'] (.array [0, 0, 3]) = .ok (['m', 's'].map (Named (dataMoments [0, 0, 3]))) :=
  match_targets_array_partial _ (by simp) _ (by decide) (by simp) (by simp)

example : warns [1] [1.1] = true := by norm_num [warns]

end Verif.Props
