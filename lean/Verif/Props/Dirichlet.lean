import Verif.Model.Dirichlet
import Verif.Lemmas.Loop
import Verif.Lemmas.Rotation

/-!
# C39, C40: dirichlet_mode
-/

set_option linter.unusedSimpArgs false

namespace Verif.Props
open Verif Verif.Dirichlet Verif.Loop

theorem alphaOf_sum (mode : List ℝ) (tau : ℝ) :
    (alphaOf mode tau).sum = mode.length + tau * mode.sum := by
  unfold alphaOf
  induction mode with
  | nil => simp
  | cons m ms ih => simp only [List.map_cons, List.sum_cons, List.length_cons, ih]; push_cast; ring

theorem nextTau_pos (prob : ℝ → Option ℝ) (target tau : ℝ) (h : 0 < tau) :
    0 < nextTau prob target tau := by
  unfold nextTau
  cases prob tau with
  | none => simp only; linarith
  | some p => simp only; split_ifs <;> linarith

/-- the accepted requests, and the mode that is aimed at -/
theorem prepare_ok_iff (mass : ℝ) (mode m : List ℝ) (w : Bool) :
    prepare mass mode = .ok (m, w) ↔ (0 < mass ∧ mass ≤ 1) ∧ (∀ i ∈ mode, 0 < i) ∧
      ((|mode.sum - 1| < 1 / 10000 ∧ m = mode ∧ w = false) ∨
       (¬ |mode.sum - 1| < 1 / 10000 ∧ m = mode.map (fun i => i / mode.sum) ∧ w = true)) := by
  unfold prepare
  by_cases h1 : 0 < mass ∧ mass ≤ 1
  · rw [if_neg (by simpa using h1)]
    by_cases h2 : ∀ i ∈ mode, 0 < i
    · have h2' : ¬ (mode.any fun i => decide (¬ 0 < i)) = true := by
        simp only [List.any_eq_true, decide_eq_true_eq, not_exists, not_and, not_not]; exact h2
      rw [if_neg h2']
      by_cases h3 : |mode.sum - 1| < 1 / 10000
      · rw [if_pos h3]; simp only [h1, h2, h3, Except.ok.injEq, Prod.mk.injEq]; simp [eq_comm]; tauto
      · rw [if_neg h3]; simp only [h1, h2, h3, Except.ok.injEq, Prod.mk.injEq]; simp [eq_comm]; tauto
    · have h2' : (mode.any fun i => decide (¬ 0 < i)) = true := by
        simp only [List.any_eq_true, decide_eq_true_eq]; push Not at h2 ⊢; exact h2
      rw [if_pos h2']; simp only [h2]; simp
  · rw [if_pos h1]; simp only [h1]; simp

/-- the mode aimed at: positive, and proportional to the one requested -/
theorem prepared_mode {mass : ℝ} {mode m : List ℝ} {w : Bool} (h : prepare mass mode = .ok (m, w))
    (hne : mode ≠ []) :
    0 < m.sum ∧ (∀ i ∈ m, 0 < i) ∧ m.length = mode.length ∧ |m.sum - 1| < 1 / 10000 ∧
      m.map (fun i => i / m.sum) = mode.map (fun i => i / mode.sum) := by
  rw [prepare_ok_iff] at h
  obtain ⟨-, hpos, h⟩ := h
  have hs : 0 < mode.sum := List.sum_pos _ (fun x hx => hpos x hx) hne
  rcases h with ⟨h3, rfl, -⟩ | ⟨h3, rfl, -⟩
  · exact ⟨hs, hpos, rfl, h3, rfl⟩
  · have hsum : (mode.map fun i => i / mode.sum).sum = 1 := by
      rw [show (fun i => i / mode.sum) = fun i => i * (mode.sum)⁻¹ from by funext i; rw [div_eq_mul_inv],
        List.sum_map_mul_right, List.map_id', mul_inv_cancel₀ hs.ne']
    refine ⟨by rw [hsum]; norm_num, ?_, by simp, by rw [hsum]; norm_num, ?_⟩
    · intro i hi
      simp only [List.mem_map] at hi
      obtain ⟨j, hj, rfl⟩ := hi
      exact div_pos (hpos j hj) hs
    · rw [hsum]; simp

/-- When `dirichlet_mode` returns, there is one concentration `tau > 0` with every `alpha_i` equal to
one plus `tau` times the aimed-at mode, so larger than one; the mode of the returned Dirichlet is the
requested mode divided by its sum, exactly. -/
theorem dirichlet_mode_returned {cdf : ℝ → ℝ → ℝ → Option ℝ} {mode : List ℝ} {mass bound : ℝ}
    {out : Out} (hne : mode ≠ []) (h : Returns cdf mode mass bound out) :
    (∃ tau m : ℝ, 0 < tau ∧ 0 < m ∧ |mode.sum / m - 1| < 1 / 10000 ∧
      out.alpha = mode.map fun x => 1 + tau * (x / m)) ∧
    (∀ a ∈ out.alpha, 1 < a) ∧
    dirichletModeOf out.alpha = some (mode.map fun x => x / mode.sum) := by
  obtain ⟨m, w, tau, hp, hends, rfl⟩ := h
  obtain ⟨hms, hmpos, hlen, hmsum, hmap⟩ := prepared_mode hp hne
  have htau : 0 < tau := hends.inv (fun t => 0 < t) one_pos fun x _ hx => nextTau_pos _ _ x hx
  have hall : ∀ a ∈ alphaOf m tau, 1 < a := by
    intro a ha
    simp only [alphaOf, List.mem_map] at ha
    obtain ⟨x, hx, rfl⟩ := ha
    have := mul_pos htau (hmpos x hx)
    linarith
  refine ⟨?_, hall, ?_⟩
  · have hp' := hp
    rw [prepare_ok_iff] at hp'
    obtain ⟨-, hpos, h⟩ := hp'
    have hs : 0 < mode.sum := List.sum_pos _ (fun x hx => hpos x hx) hne
    rcases h with ⟨h3, rfl, -⟩ | ⟨h3, rfl, -⟩
    · exact ⟨tau, 1, htau, one_pos, by simpa using h3, by simp [finish, alphaOf]⟩
    · refine ⟨tau, mode.sum, htau, hs, by rw [div_self hs.ne']; norm_num, ?_⟩
      simp [finish, alphaOf, Function.comp_def]
  · have h1 : ((alphaOf m tau).all fun a => decide (a > 1)) = true := by
      simp only [List.all_eq_true, decide_eq_true_eq]; exact hall
    simp only [dirichletModeOf, finish, h1, if_true, Option.some.injEq]
    rw [← hmap]
    unfold calculatedMode
    rw [alphaOf_sum]
    simp only [alphaOf, List.map_map, List.length_map]
    apply List.map_congr_left
    intro x _
    simp only [Function.comp]
    have ht : (m.length : ℝ) + tau * m.sum - m.length = tau * m.sum := by ring
    rw [ht]
    field_simp
    ring

/-- the warnings: the one about the sum of the requested mode is issued exactly when that sum is off by 1e-4 or more; the one
about the mode of the result never -/
theorem dirichlet_warnings {cdf : ℝ → ℝ → ℝ → Option ℝ} {mode : List ℝ} {mass bound : ℝ}
    {out : Out} (hne : mode ≠ []) (h : Returns cdf mode mass bound out) :
    (out.normalised = true ↔ 1 / 10000 ≤ |mode.sum - 1|) ∧ out.modeWarning = false := by
  have hmode := (dirichlet_mode_returned hne h).2
  obtain ⟨m, w, tau, hp, hends, rfl⟩ := h
  obtain ⟨hms, hmpos, hlen, hmsum, hmap⟩ := prepared_mode hp hne
  rw [prepare_ok_iff] at hp
  obtain ⟨-, hpos, h⟩ := hp
  constructor
  · rcases h with ⟨h3, rfl, hw⟩ | ⟨h3, rfl, hw⟩
    · subst hw; exact ⟨fun h => (Bool.false_ne_true h).elim, fun h => absurd h3 (not_lt.2 h)⟩
    · subst hw; exact ⟨fun _ => not_lt.1 h3, fun _ => rfl⟩
  · have hc : calculatedMode (alphaOf m tau) = m.map fun x => x / m.sum := by
      obtain ⟨h1, h2⟩ := hmode
      have h1' : ((alphaOf m tau).all fun a => decide (a > 1)) = true := by
        simp only [List.all_eq_true, decide_eq_true_eq]; exact h1
      simp only [dirichletModeOf, finish, h1', if_true, Option.some.injEq] at h2
      rw [h2, ← hmap]
    have hz : ∀ p ∈ m.zip (m.map fun x => x / m.sum), p.1 ∈ m ∧ p.2 = p.1 / m.sum := by
      intro p hpm
      rw [← List.map_id m, List.map_map, List.zip_map'] at hpm
      simp only [List.mem_map] at hpm
      obtain ⟨x, hx, rfl⟩ := hpm
      exact ⟨hx, by simp⟩
    simp only [finish]
    rw [hc, List.any_eq_false]
    intro p hpm
    obtain ⟨hx, he⟩ := hz p hpm
    simp only [decide_eq_true_eq, not_lt, he]
    have hx0 := hmpos _ hx
    have hxs : p.1 ≤ m.sum := List.single_le_sum (fun y hy => (hmpos y hy).le) _ hx
    have hs0 : 0 < m.sum := by linarith
    obtain ⟨h1, h2⟩ := abs_lt.1 hmsum
    rw [show p.1 - p.1 / m.sum = p.1 / m.sum * (m.sum - 1) by field_simp]
    have h3 : p.1 / m.sum ≤ 1 := (div_le_one hs0).2 hxs
    have h4 : 0 < p.1 / m.sum := by positivity
    nlinarith

/-- the averaged tail probability of the returned distribution is within 1e-4 of the target, for a Beta
distribution function that is a number for positive parameters and at least two categories -/
theorem dirichlet_tail_returned {cdf : ℝ → ℝ → ℝ → Option ℝ}
    {F : ℝ → ℝ → ℝ → ℝ} (hcdf : ∀ a b x, 0 < a → 0 < b → cdf a b x = some (F a b x))
    {mode : List ℝ} {mass bound : ℝ} {out : Out} (hlen : 2 ≤ mode.length)
    (h : Returns cdf mode mass bound out) :
    ∃ m w, prepare mass mode = .ok (m, w) ∧
      |((out.alpha.zip (lowBounds m bound)).map fun p => F p.1 (out.alpha.sum - p.1) p.2).sum /
        mode.length - (1 - mass) / 2| ≤ 1 / 10000 := by
  obtain ⟨m, w, tau, hp, hends, rfl⟩ := h
  have hne : mode ≠ [] := by rintro rfl; simp at hlen
  obtain ⟨hms, hmpos, hl, -, -⟩ := prepared_mode hp hne
  have htau : 0 < tau := hends.inv (fun t => 0 < t) one_pos fun x _ hx => nextTau_pos _ _ x hx
  refine ⟨m, w, hp, ?_⟩
  have hstop := hends.stop
  set alpha := alphaOf m tau with ha
  have hal : alpha.length = m.length := by simp [ha, alphaOf]
  have hgt : ∀ a ∈ alpha, 1 < a := by
    intro a haa
    simp only [ha, alphaOf, List.mem_map] at haa
    obtain ⟨x, hx, rfl⟩ := haa
    have := mul_pos htau (hmpos x hx)
    linarith
  -- each alpha is smaller than the sum
  have hlt : ∀ (l : List ℝ), 2 ≤ l.length → (∀ a ∈ l, 1 < a) → ∀ a ∈ l, a < l.sum := by
    intro l hl h1 a hmem
    obtain ⟨s, t, rfl⟩ := List.append_of_mem hmem
    have hpos : ∀ (r : List ℝ), (∀ a ∈ r, 1 < a) → 0 ≤ r.sum := fun r hr =>
      List.sum_nonneg fun x hx => by linarith [hr x hx]
    have hs := hpos s fun x hx => h1 x (by simp [hx])
    have ht := hpos t fun x hx => h1 x (by simp [hx])
    simp only [List.sum_append, List.sum_cons]
    rcases s with _ | ⟨y, ys⟩
    · rcases t with _ | ⟨y, ys⟩
      · simp at hl
      · have := h1 y (by simp)
        have := hpos ys fun x hx => h1 x (by simp [hx])
        simp only [List.sum_nil, List.sum_cons] at *
        linarith
    · have := h1 y (by simp)
      have := hpos ys fun x hx => h1 x (by simp [hx])
      simp only [List.sum_cons] at *
      linarith
  have hb : ∀ a ∈ alpha, 0 < alpha.sum - a := fun a h =>
    sub_pos.2 (hlt alpha (by rw [hal, hl]; exact hlen) hgt a h)
  have hprob : probApprox cdf (lowBounds m bound) m tau = some
      (((alpha.zip (lowBounds m bound)).map fun p => F p.1 (alpha.sum - p.1) p.2).sum /
        mode.length) := by
    unfold probApprox
    simp only [← ha]
    have hzip : (alpha.zip (lowBounds m bound)).map (fun p => cdf p.1 (alpha.sum - p.1) p.2) =
        ((alpha.zip (lowBounds m bound)).map fun p => F p.1 (alpha.sum - p.1) p.2).map some := by
      rw [List.map_map]
      apply List.map_congr_left
      rintro ⟨a, b⟩ hab
      have hmem := (List.of_mem_zip hab).1
      exact hcdf _ _ _ (by linarith [hgt a hmem]) (hb a hmem)
    rw [hzip]
    have hsum : ∀ l : List ℝ, sumOpt (l.map some) = some l.sum := by
      intro l
      induction l with
      | nil => rfl
      | cons x xs ih => simp [sumOpt, ih]
    have hlen2 : ((alpha.zip (lowBounds m bound)).map fun p => F p.1 (alpha.sum - p.1) p.2).length =
        mode.length := by
      simp [lowBounds, hal, hl]
    unfold meanOpt
    rw [if_neg, hsum, Option.map_some, List.length_map, hlen2]
    intro h0
    have := congrArg List.length h0
    rw [List.length_map, hlen2] at this
    simp at this
    exact hne this
  unfold searching at hstop
  rw [hprob] at hstop
  simp only [decide_eq_false_iff_not, not_lt, gt_iff_lt] at hstop
  simpa [finish, ← ha] using hstop

/-- a request with an unnormalised mode that returns -/
example : ∃ out, Returns (fun _ _ _ => some 0.05) [2, 1, 1] 0.9 0.01 out ∧ out.normalised = true ∧
    dirichletModeOf out.alpha = some [1 / 2, 1 / 4, 1 / 4] := by
  have hp : prepare 0.9 [2, 1, 1] = .ok ([2, 1, 1].map fun i => i / ([2, 1, 1] : List ℝ).sum, true) := by
    rw [prepare_ok_iff]
    refine ⟨by norm_num, ?_, Or.inr ⟨?_, rfl, rfl⟩⟩
    · intro i hi; fin_cases hi <;> norm_num
    · norm_num
  have h : Returns (fun _ _ _ => some 0.05) [2, 1, 1] 0.9 0.01
      (finish ([2, 1, 1].map fun i => i / ([2, 1, 1] : List ℝ).sum) true 1) := by
    refine ⟨_, _, 1, hp, ⟨0, ?_⟩, rfl⟩
    unfold run
    rw [if_neg]
    simp only [searching, probApprox, alphaOf, lowBounds, List.map_cons, List.map_nil, meanOpt,
      List.zip_cons_cons, List.zip_nil_right, sumOpt]
    norm_num
    rw [if_neg (by simp)]
    norm_num
  refine ⟨_, h, rfl, ?_⟩
  rw [(dirichlet_mode_returned (by simp) h).2.2]
  norm_num

/-- requests that are rejected -/
theorem dirichlet_rejects (mass : ℝ) (mode : List ℝ) :
    prepare mass mode = .error .valueError ↔ ¬ (0 < mass ∧ mass ≤ 1) ∨ ∃ i ∈ mode, i ≤ 0 := by
  unfold prepare
  by_cases h1 : 0 < mass ∧ mass ≤ 1
  · rw [if_neg (by simpa using h1)]
    by_cases h2 : ∃ i ∈ mode, i ≤ 0
    · have h2' : (mode.any fun i => decide (¬ 0 < i)) = true := by
        simp only [List.any_eq_true, decide_eq_true_eq, not_lt]; exact h2
      rw [if_pos h2']; simp only [h2]; simp
    · have h2' : ¬ (mode.any fun i => decide (¬ 0 < i)) = true := by
        simp only [List.any_eq_true, decide_eq_true_eq, not_lt]; exact h2
      rw [if_neg h2']
      split_ifs <;> simp only [h1, h2] <;> simp
  · rw [if_pos h1]; simp only [h1]; simp

/-! ## C40 -/

/-- The search terminates whenever the tail probability crosses the target exactly once, from above,
and is continuous there. -/
theorem dirichlet_search_ends (prob : ℝ → ℝ) (target x : ℝ) (hx : 0 < x)
    (habove : ∀ t, 0 < t → t < x → target < prob t) (hbelow : ∀ t, x < t → prob t < target)
    (hat : prob x = target) (hcont : ContinuousAt prob x) :
    ∃ t, Ends (searching (fun t => some (prob t)) target)
      (nextTau (fun t => some (prob t)) target) 1 t ∧ |prob t - target| ≤ 1 / 10000 := by
  set cond := searching (fun t => some (prob t)) target with hcond
  set step := nextTau (fun t => some (prob t)) target with hstep
  have hiff : ∀ t, cond t = false ↔ |prob t - target| ≤ 1 / 10000 := by
    intro t; simp [hcond, searching]
  suffices h : ∃ n, cond (step^[n] 1) = false by
    obtain ⟨t, ht⟩ := ends_of_iterate h
    exact ⟨t, ht, (hiff t).1 ht.stop⟩
  by_contra hno
  push Not at hno
  set τ : ℕ → ℝ := fun n => step^[n] 1 with hτ
  have hpos : ∀ n, 0 < τ n := by
    intro n
    induction n with
    | zero => simp [hτ]
    | succ n ih => simp only [hτ, Function.iterate_succ_apply']; exact nextTau_pos _ _ _ ih
  have hnext : ∀ n, τ (n + 1) = if x < τ n then τ n / 2 else τ n * (3 / 2) := by
    intro n
    have h1 : τ (n + 1) = step (τ n) := by simp only [hτ, Function.iterate_succ_apply']
    rw [h1, hstep]
    simp only [nextTau]
    by_cases hc : x < τ n
    · rw [if_pos (hbelow _ hc), if_pos hc]; ring
    · rw [if_neg hc, if_neg]
      · ring
      · push Not at hc
        rcases hc.lt_or_eq with hlt | heq
        · exact not_lt.2 (habove _ (hpos n) hlt).le
        · rw [heq, hat]; exact lt_irrefl _
  -- nearby the search stops
  have hc2 : ContinuousAt (fun u => prob (Real.exp u)) (Real.log x) := by
    have h1 : ContinuousAt prob (Real.exp (Real.log x)) := by rw [Real.exp_log hx]; exact hcont
    exact ContinuousAt.comp (g := prob) h1 Real.continuous_exp.continuousAt
  obtain ⟨δ, hδ, hclose⟩ := Metric.continuousAt_iff.1 hc2 (1 / 10000) (by norm_num)
  obtain ⟨k, hk⟩ := Rotation.search_close (u := fun n => Real.log (τ n)) (x := Real.log x) (by
    intro k
    simp only [Real.log_lt_log_iff hx (hpos k)]
    rw [hnext]
    split_ifs with hc
    · rw [Real.log_div (hpos k).ne' (by norm_num)]
    · rw [Real.log_mul (hpos k).ne' (by norm_num)]) hδ
  refine hno k ((hiff _).2 ?_)
  have := hclose (x := Real.log (τ k)) (by rw [Real.dist_eq]; exact hk)
  rw [Real.exp_log (hpos k), Real.exp_log hx, hat, Real.dist_eq] at this
  exact this.le

/-- the same for a continuous strictly decreasing tail probability that takes the target value -/
theorem dirichlet_search_ends_of_strictAnti (prob : ℝ → ℝ) (target : ℝ)
    (hanti : StrictAntiOn prob (Set.Ioi 0)) (hcont : ContinuousOn prob (Set.Ioi 0))
    (htakes : ∃ x, 0 < x ∧ prob x = target) :
    ∃ t, Ends (searching (fun t => some (prob t)) target)
      (nextTau (fun t => some (prob t)) target) 1 t ∧ |prob t - target| ≤ 1 / 10000 := by
  obtain ⟨x, hx, hxt⟩ := htakes
  refine dirichlet_search_ends prob target x hx ?_ ?_ hxt (hcont.continuousAt (Ioi_mem_nhds hx))
  · intro t h0 ht; rw [← hxt]; exact hanti h0 hx ht
  · intro t ht; rw [← hxt]; exact hanti hx (hx.trans ht) ht

/-- a tail probability to which the theorem applies -/
example : ∃ t, Ends (searching (fun t => some (1 / (1 + t))) (0.055 : ℝ))
    (nextTau (fun t => some (1 / (1 + t))) 0.055) 1 t ∧ |1 / (1 + t) - 0.055| ≤ 1 / 10000 := by
  refine dirichlet_search_ends_of_strictAnti (fun t => 1 / (1 + t)) 0.055 ?_ ?_
    ⟨1 / 0.055 - 1, by norm_num, by norm_num⟩
  · intro a ha b hb hab
    simp only [Set.mem_Ioi] at ha hb
    exact one_div_lt_one_div_of_lt (by linarith) (by linarith)
  · refine ContinuousOn.div continuousOn_const (by fun_prop) ?_
    intro t ht; simp only [Set.mem_Ioi] at ht; linarith

/-- the search never ends when the tail probability stays away from the target -/
theorem dirichlet_search_hangs (prob : ℝ → ℝ) (target : ℝ)
    (h : ∀ t, 0 < t → 1 / 10000 < |prob t - target|) :
    ¬ ∃ t, Ends (searching (fun t => some (prob t)) target)
      (nextTau (fun t => some (prob t)) target) 1 t := by
  apply not_ends
  intro n
  have hpos : ∀ n, 0 < (nextTau (fun t => some (prob t)) target)^[n] 1 := by
    intro n
    induction n with
    | zero => simp
    | succ n ih => rw [Function.iterate_succ_apply']; exact nextTau_pos _ _ _ ih
  simpa [searching] using h _ (hpos n)

/-- A whole request that never returns: with a bound at least as large as every component of the mode
all lower bounds are 0, where a Beta distribution function vanishes. -/
theorem dirichlet_mode_hangs {cdf : ℝ → ℝ → ℝ → Option ℝ}
    (hcdf : ∀ a b, 0 < a → 0 < b → cdf a b 0 = some 0) (mode : List ℝ) (mass bound : ℝ)
    (hlen : 2 ≤ mode.length) (hpos : ∀ i ∈ mode, 0 < i) (hsum : mode.sum = 1)
    (hbound : ∀ i ∈ mode, i ≤ bound) (hmass : 0 < mass ∧ mass < 0.999) :
    ¬ ∃ out, Returns cdf mode mass bound out := by
  rintro ⟨out, m, w, tau, hp, hends, -⟩
  rw [prepare_ok_iff] at hp
  obtain ⟨-, -, ⟨-, rfl, -⟩ | ⟨h, -⟩⟩ := hp
  swap
  · rw [hsum] at h; norm_num at h
  have hlb : ∀ x ∈ lowBounds m bound, x = 0 := by
    intro x hx
    simp only [lowBounds, List.mem_map] at hx
    obtain ⟨i, hi, rfl⟩ := hx
    have := hbound i hi
    rw [max_eq_right (by linarith)]; norm_num
  have hprob : ∀ t, 0 < t → probApprox cdf (lowBounds m bound) m t = some 0 := by
    intro t ht
    have hgt : ∀ a ∈ alphaOf m t, 0 < a ∧ a < (alphaOf m t).sum := by
      intro a ha
      rw [alphaOf_sum, hsum]
      simp only [alphaOf, List.mem_map] at ha
      obtain ⟨x, hx, rfl⟩ := ha
      have hx1 : x ≤ 1 := by
        rw [← hsum]
        exact List.single_le_sum (fun y hy => (hpos y hy).le) x hx
      have h2 : (2 : ℝ) ≤ m.length := by exact_mod_cast hlen
      have := mul_pos ht (hpos x hx)
      constructor
      · linarith
      · nlinarith
    unfold probApprox
    simp only
    have hz : ((alphaOf m t).zip (lowBounds m bound)).map
        (fun p => cdf p.1 ((alphaOf m t).sum - p.1) p.2) =
        List.replicate m.length (some 0) := by
      rw [List.eq_replicate_iff]
      constructor
      · simp [alphaOf, lowBounds]
      · intro b hb
        simp only [List.mem_map] at hb
        obtain ⟨⟨a, l⟩, hal, rfl⟩ := hb
        have h1 := List.of_mem_zip hal
        simp only
        rw [hlb l h1.2]
        exact hcdf a _ (hgt a h1.1).1 (sub_pos.2 (hgt a h1.1).2)
    rw [hz]
    have hs : ∀ n, sumOpt (List.replicate n (some (0:ℝ))) = some 0 := by
      intro n
      induction n with
      | zero => rfl
      | succ n ih => simp [List.replicate_succ, sumOpt, ih]
    unfold meanOpt
    rw [if_neg, hs]
    · simp
    · intro h0
      have := congrArg List.length h0
      simp at this
      rw [this] at hlen; simp at hlen
  refine not_ends (cond := searching (probApprox cdf (lowBounds m bound) m) ((1 - mass) / 2))
    (step := nextTau (probApprox cdf (lowBounds m bound) m) ((1 - mass) / 2)) (s := 1) ?_ ⟨tau, hends⟩
  intro n
  have hposn : ∀ n, 0 < (nextTau (probApprox cdf (lowBounds m bound) m) ((1 - mass) / 2))^[n] 1 := by
    intro n
    induction n with
    | zero => simp
    | succ n ih => rw [Function.iterate_succ_apply']; exact nextTau_pos _ _ _ ih
  unfold searching
  rw [hprob _ (hposn n)]
  simp only [decide_eq_true_eq, zero_sub, abs_neg]
  rw [abs_of_pos (by linarith [hmass.2])]
  linarith [hmass.2]

/-- `dirichlet_mode([0.5, 0.25, 0.25], bound=0.6, mass=0.9)` -/
example : ¬ ∃ out, Returns (fun a b x => if 0 < a ∧ 0 < b then some (if x ≤ 0 then 0 else 1) else none)
    [0.5, 0.25, 0.25] 0.9 0.6 out := by
  refine dirichlet_mode_hangs ?_ _ _ _ (by simp) ?_ ?_ ?_ (by norm_num)
  · intro a b ha hb; simp [ha, hb]
  · intro i hi; fin_cases hi <;> norm_num
  · norm_num
  · intro i hi; fin_cases hi <;> norm_num

end Verif.Props
