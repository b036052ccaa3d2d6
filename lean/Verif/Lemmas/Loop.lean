import Verif.Model.Loop
import Mathlib.Logic.Function.Iterate

/-! General facts about loops. -/

namespace Verif.Loop
variable {σ : Type} {cond : σ → Bool} {step : σ → σ}

theorem run_mono {n m : ℕ} (h : n ≤ m) {s t : σ} (hr : run cond step n s = some t) :
    run cond step m s = some t := by
  induction n generalizing m s with
  | zero =>
    cases m with
    | zero => exact hr
    | succ m =>
      unfold run at hr ⊢
      by_cases hc : cond s = true <;> simp_all
  | succ n ih =>
    cases m with
    | zero => omega
    | succ m =>
      unfold run at hr ⊢
      by_cases hc : cond s = true
      · rw [if_pos hc] at hr ⊢
        exact ih (by omega) hr
      · simpa [hc] using hr

theorem Ends.unique {s t t' : σ} (h : Ends cond step s t) (h' : Ends cond step s t') : t = t' := by
  obtain ⟨n, hn⟩ := h
  obtain ⟨m, hm⟩ := h'
  have a := run_mono (Nat.le_max_left n m) hn
  have b := run_mono (Nat.le_max_right n m) hm
  rw [a] at b
  exact Option.some.inj b

theorem Ends.stop {s t : σ} (h : Ends cond step s t) : cond t = false := by
  obtain ⟨n, hn⟩ := h
  induction n generalizing s with
  | zero =>
    unfold run at hn
    by_cases hc : cond s = true <;> simp_all
  | succ n ih =>
    unfold run at hn
    by_cases hc : cond s = true
    · rw [if_pos hc] at hn; exact ih hn
    · simp_all

theorem Ends.inv {s t : σ} (P : σ → Prop) (h : Ends cond step s t) (h0 : P s)
    (hs : ∀ x, cond x = true → P x → P (step x)) : P t := by
  obtain ⟨n, hn⟩ := h
  induction n generalizing s with
  | zero =>
    unfold run at hn
    by_cases hc : cond s = true <;> simp_all
  | succ n ih =>
    unfold run at hn
    by_cases hc : cond s = true
    · rw [if_pos hc] at hn; exact ih (hs s hc h0) hn
    · simp_all

/-- the final state is an iterate of the body, every earlier state satisfies the condition -/
theorem ends_iff {s t : σ} :
    Ends cond step s t ↔ ∃ n, t = step^[n] s ∧ cond t = false ∧ ∀ m < n, cond (step^[m] s) = true := by
  constructor
  · rintro ⟨n, hn⟩
    induction n generalizing s with
    | zero =>
      unfold run at hn
      by_cases hc : cond s = true <;> simp_all
      exact ⟨0, by simp_all⟩
    | succ n ih =>
      unfold run at hn
      by_cases hc : cond s = true
      · rw [if_pos hc] at hn
        obtain ⟨m, h1, h2, h3⟩ := ih hn
        refine ⟨m + 1, by simpa using h1, h2, fun k hk => ?_⟩
        cases k with
        | zero => simpa using hc
        | succ k => simpa using h3 k (by omega)
      · refine ⟨0, ?_⟩
        simp_all
  · rintro ⟨n, h1, h2, h3⟩
    refine ⟨n, ?_⟩
    induction n generalizing s with
    | zero => unfold run; simp_all
    | succ n ih =>
      unfold run
      rw [if_pos (by simpa using h3 0 (by omega))]
      exact ih (by simpa using h1) (fun m hm => by simpa using h3 (m + 1) (by omega))

theorem ends_of_iterate {s : σ} (h : ∃ n, cond (step^[n] s) = false) : ∃ t, Ends cond step s t := by
  classical
  refine ⟨step^[Nat.find h] s, ends_iff.mpr ⟨Nat.find h, rfl, Nat.find_spec h, fun m hm => ?_⟩⟩
  simpa using Nat.find_min h hm

theorem not_ends {s : σ} (h : ∀ n, cond (step^[n] s) = true) : ¬ ∃ t, Ends cond step s t := by
  rintro ⟨t, ht⟩
  obtain ⟨n, h1, h2, -⟩ := ends_iff.mp ht
  have := h n
  rw [← h1, h2] at this
  cases this

end Verif.Loop
