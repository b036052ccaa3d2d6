import Verif.Model.Project
import Mathlib.Probability.Independence.Basic
import Mathlib.MeasureTheory.Measure.Real

set_option linter.unusedSimpArgs false

/-!
# C82: projecting a target onto a model (`ppe`)
-/

namespace Verif.Props
open Verif MeasureTheory Verif.Project

/-- the chain of optimisations: each one starts where the previous one ended -/
def chain (minimize : List ℝ → List ℝ → List ℝ) (obs : ℕ → List ℝ) (guess : List ℝ) : ℕ → List ℝ
  | 0 => minimize (obs 0) guess
  | k + 1 => minimize (obs (k + 1)) (chain minimize obs guess k)

/-- probabilities that numpy accepts -/
def Weights (w : List ℝ) : Prop := w ≠ [] ∧ (∀ x ∈ w, 0 ≤ x) ∧ |w.sum - 1| ≤ (1 / 2) ^ 26

theorem rounds_ok {σ : Type} (r : Rng σ) (minimize : List ℝ → List ℝ → List ℝ) (target : Targets σ) (n : ℕ)
    (guess : List ℝ) (obs : ℕ → List ℝ) (st : ℕ → σ)
    (h : ∀ k, observe r target n k (st k) = .ok (obs k, st (k + 1))) (left : ℕ) :
    ∀ (idx : ℕ) (arr : List (List ℝ)) (start : List ℝ),
      chain minimize obs guess idx = minimize (obs idx) start →
      ∃ arr', rounds r minimize target n left idx arr start (st idx) = .ok arr' ∧ arr'.length = arr.length ∧
        ∀ j < arr.length, arr'[j]? =
          if idx ≤ j + 1 ∧ j + 1 < idx + left then some (chain minimize obs guess (j + 1)) else arr[j]? := by
  induction left with
  | zero =>
    intro idx arr start _
    refine ⟨arr, rfl, rfl, ?_⟩
    intro j _
    rw [if_neg (by omega)]
  | succ left ih =>
    intro idx arr start hs
    obtain ⟨arr', e, hl, hj⟩ := ih (idx + 1)
      (if idx ≠ 0 then arr.set (idx - 1) (minimize (obs idx) start) else arr) (minimize (obs idx) start)
      (by rw [chain, hs])
    have hlen : (if idx ≠ 0 then arr.set (idx - 1) (minimize (obs idx) start) else arr).length = arr.length := by
      split_ifs <;> simp
    refine ⟨arr', ?_, by rw [hl, hlen], ?_⟩
    · unfold rounds
      rw [h idx]
      exact e
    · intro j hjl
      rw [hj j (by rw [hlen]; exact hjl)]
      by_cases h0 : idx + 1 ≤ j + 1 ∧ j + 1 < idx + 1 + left
      · rw [if_pos h0, if_pos (by omega)]
      · rw [if_neg h0]
        by_cases h1 : j + 1 = idx
        · rw [if_pos (by omega : idx ≠ 0), if_pos (by omega : idx ≤ j + 1 ∧ j + 1 < idx + (left + 1)),
            List.getElem?_set, if_pos (by omega), if_pos (by omega), h1, hs]
        · rw [if_neg (by omega : ¬ (idx ≤ j + 1 ∧ j + 1 < idx + (left + 1)))]
          split_ifs with h2
          · rw [List.getElem?_set_ne (by omega)]
          · rfl

/-- C82: with a single target, the result has one row per iteration; the observations of round `k` are the sample with
seed `k`, each optimisation starts at the result of the previous one, and the first result is not kept. -/
theorem single_target {σ : Type} (r : Rng σ) (minimize : List ℝ → List ℝ → List ℝ) (t : Target σ) (n iters : ℕ)
    (guess : List ℝ) (s : σ) :
    Gives (project r minimize (.one t) n iters guess s) fun rows => rows.length = iters ∧
      ∀ k < iters, rows[k]? = some (chain minimize (t.seeded n) guess (k + 1)) := by
  obtain ⟨arr, e, hl, hj⟩ := rounds_ok r minimize (.one t) n guess (t.seeded n) (fun _ => s) (fun _ => rfl) (iters + 1) 0
    (List.replicate iters (List.replicate guess.length 0)) guess rfl
  rw [List.length_replicate] at hl hj
  refine ⟨arr, e, hl, ?_⟩
  intro k hk
  rw [hj k hk, if_pos (by omega)]

/-- C82, what fails: with a single target the random state has no influence at all. -/
theorem random_state_ignored {σ τ : Type} (r : Rng σ) (r' : Rng τ) (minimize : List ℝ → List ℝ → List ℝ) (t : Target σ)
    (t' : Target τ) (ht : t.seeded = t'.seeded) (n iters : ℕ) (guess : List ℝ) (s : σ) (s' : τ) :
    project r minimize (.one t) n iters guess s = project r' minimize (.one t') n iters guess s' := by
  obtain ⟨a, ha, hl, hk⟩ := single_target r minimize t n iters guess s
  obtain ⟨b, hb, hl', hk'⟩ := single_target r' minimize t' n iters guess s'
  rw [ha, hb]
  congr 1
  apply List.ext_getElem?
  intro k
  by_cases h : k < iters
  · rw [hk k h, hk' k h, ht]
  · rw [List.getElem?_eq_none (by omega), List.getElem?_eq_none (by omega)]

theorem choose_ok (i : ℕ) (cs : List ℕ) (samples : List (List ℝ)) (hc : ∀ c ∈ cs, c < samples.length)
    (hs : ∀ x ∈ samples, i + cs.length ≤ x.length) :
    ∃ out, choose i cs samples = .ok out ∧ out.length = cs.length ∧
      ∀ k (hk : k < cs.length), ∃ smp, samples[cs[k]]? = some smp ∧ out[k]? = smp[i + k]? ∧ i + k < smp.length := by
  induction cs generalizing i with
  | nil => exact ⟨[], rfl, rfl, by simp⟩
  | cons c cs ih =>
    have hcl := hc c (by simp)
    have hsl := hs _ (List.getElem_mem hcl)
    simp only [List.length_cons] at hs hsl
    obtain ⟨out, e, hl, hk⟩ := ih (i + 1) (fun x hx => hc x (by simp [hx])) (fun x hx => by have := hs x hx; omega)
    have hi : i < samples[c].length := by omega
    refine ⟨samples[c][i] :: out, ?_, by simp [hl], ?_⟩
    · unfold choose
      rw [List.getElem?_eq_getElem hcl]
      simp only [Option.bind_some, List.getElem?_eq_getElem hi, Except.ok_bind', e, Except.pure_eq]
    · intro k hk'
      cases k with
      | zero => exact ⟨samples[c], by simp [List.getElem?_eq_getElem hcl], by simp [List.getElem?_eq_getElem hi], by omega⟩
      | succ k =>
        obtain ⟨smp, h1, h2, h3⟩ := hk k (by simpa using hk')
        refine ⟨smp, by simpa using h1, ?_, by omega⟩
        simp only [List.getElem?_cons_succ]
        rw [h2]
        congr 1
        omega

theorem draws_length {σ : Type} (size : ℕ) (ts : List (Target σ)) (s : σ) :
    (draws size ts s).1.length = ts.length ∧ ∀ x ∈ (draws size ts s).1, x.length = size := by
  induction ts generalizing s with
  | nil => simp [draws]
  | cons t ts ih =>
    obtain ⟨h1, h2⟩ := ih (t.rvs size s).2
    unfold draws
    dsimp only
    refine ⟨by simp [h1], ?_⟩
    intro x hx
    rcases List.mem_cons.1 hx with rfl | hx
    · exact t.rvs_length size s
    · exact h2 x hx

/-- one value of the observations belongs to the sample of the target chosen for it -/
def FromChosen {σ : Type} (r : Rng σ) (target : List (Target σ × ℝ)) (size : ℕ) (s : σ) (obs : List ℝ) : Prop :=
  obs.length = size ∧ ∀ i < size, ∃ c < target.length, ∃ smp : List ℝ,
    (r.pick target.length size (target.map Prod.snd) s).1[i]? = some c ∧
    (draws size (target.map Prod.fst) (r.pick target.length size (target.map Prod.snd) s).2).1[c]? = some smp ∧
    obs[i]? = smp[i]? ∧ i < smp.length

theorem weighted_ok {σ : Type} (r : Rng σ) (target : List (Target σ × ℝ)) (size : ℕ) (s : σ)
    (hw : Weights (target.map Prod.snd)) :
    ∃ obs s', weightedRvs r target size s = .ok (obs, s') ∧ FromChosen r target size s obs := by
  obtain ⟨h0, h1, h2⟩ := hw
  have hne : target.length ≠ 0 := by
    intro h
    rw [List.length_eq_zero_iff] at h
    exact h0 (by rw [h]; rfl)
  have hc : choice r target.length size (target.map Prod.snd) s
      = .ok (r.pick target.length size (target.map Prod.snd) s) := by
    unfold choice
    rw [if_neg hne, if_neg (by push Not; exact h1), if_neg (show ¬ |(target.map Prod.snd).sum - 1| > tol from not_lt.2 h2)]
  unfold weightedRvs FromChosen
  rw [hc]
  simp only [Except.ok_bind', Except.pure_eq]
  have hl := r.pick_length target.length size (target.map Prod.snd) s
  have hlt := r.pick_lt target.length size (target.map Prod.snd) s hne
  generalize r.pick target.length size (target.map Prod.snd) s = c at *
  obtain ⟨d1, d2⟩ := draws_length size (target.map Prod.fst) c.2
  rw [List.length_map] at d1
  generalize draws size (target.map Prod.fst) c.2 = d at *
  obtain ⟨out, e, ho, hk⟩ := choose_ok 0 c.1 d.1 (fun x hx => by rw [d1]; exact hlt x hx)
    (fun x hx => by rw [d2 x hx, hl]; omega)
  refine ⟨out, d.2, by rw [e]; rfl, by rw [ho, hl], ?_⟩
  intro i hi
  obtain ⟨smp, h3, h4, h5⟩ := hk i (by rw [hl]; exact hi)
  rw [Nat.zero_add] at h4 h5
  exact ⟨c.1[i]'(by rw [hl]; exact hi), hlt _ (List.getElem_mem _), smp, List.getElem?_eq_getElem _, h3, h4, h5⟩

/-- C82: with weighted targets the same chain is run on observations each of whose values is taken from the sample of the
target chosen for it. -/
theorem weighted_targets {σ : Type} (r : Rng σ) (minimize : List ℝ → List ℝ → List ℝ) (target : List (Target σ × ℝ))
    (hw : Weights (target.map Prod.snd)) (n iters : ℕ) (guess : List ℝ) (s : σ) :
    ∃ (obs : ℕ → List ℝ) (st : ℕ → σ), st 0 = s ∧ (∀ k, FromChosen r target n (st k) (obs k)) ∧
      Gives (project r minimize (.many target) n iters guess s) fun rows => rows.length = iters ∧
        ∀ k < iters, rows[k]? = some (chain minimize obs guess (k + 1)) := by
  choose o nx hon hfc using fun s => weighted_ok r target n s hw
  let st : ℕ → σ := fun k => Nat.rec s (fun _ x => nx x) k
  refine ⟨fun k => o (st k), st, rfl, fun k => hfc _, ?_⟩
  obtain ⟨arr, e, hl, hj⟩ := rounds_ok r minimize (.many target) n guess (fun k => o (st k)) st (fun k => hon (st k))
    (iters + 1) 0 (List.replicate iters (List.replicate guess.length 0)) guess rfl
  rw [List.length_replicate] at hl hj
  refine ⟨arr, e, hl, ?_⟩
  intro k hk
  rw [hj k hk, if_pos (by omega)]

/-- C82: weights that are not probabilities are rejected, they are not normalised. -/
theorem bad_weights_rejected {σ : Type} (r : Rng σ) (minimize : List ℝ → List ℝ → List ℝ) (target : List (Target σ × ℝ))
    (hw : ¬ Weights (target.map Prod.snd)) (n iters : ℕ) (guess : List ℝ) (s : σ) :
    project r minimize (.many target) n iters guess s = .error .valueError := by
  unfold project rounds observe weightedRvs
  have : choice r target.length n (target.map Prod.snd) s = .error .valueError := by
    unfold choice
    by_cases h0 : target.length = 0
    · rw [if_pos h0]
    · rw [if_neg h0]
      by_cases h1 : ∃ x ∈ target.map Prod.snd, x < 0
      · rw [if_pos h1]
      · rw [if_neg h1]
        by_cases h2 : |(target.map Prod.snd).sum - 1| > tol
        · rw [if_pos h2]
        · exfalso
          refine hw ⟨?_, by push Not at h1; exact h1, not_lt.1 h2⟩
          intro h
          exact h0 (by simpa using h)
  dsimp only
  rw [this]
  rfl

/-- C82: if the choice of a value is independent of the samples and takes target `j` with probability `w j`, then the
observed value follows the mixture of the targets. -/
theorem chosen_law {Ω : Type} [MeasurableSpace Ω] (P : Measure Ω) [IsProbabilityMeasure P] (m : ℕ) (C : Ω → Fin m)
    (S : Fin m → Ω → ℝ) (hC : Measurable C) (hS : ∀ j, Measurable (S j))
    (hind : ∀ j, ProbabilityTheory.IndepFun C (S j) P) (A : Set ℝ) (hA : MeasurableSet A) :
    P.real {ω | S (C ω) ω ∈ A} = ∑ j, P.real {ω | C ω = j} * P.real {ω | S j ω ∈ A} := by
  have e : {ω | S (C ω) ω ∈ A} = ⋃ j ∈ (Finset.univ : Finset (Fin m)), (C ⁻¹' {j} ∩ S j ⁻¹' A) := by
    ext ω
    simp
  rw [e, measureReal_biUnion_finset (f := fun j => C ⁻¹' {j} ∩ S j ⁻¹' A)]
  · refine Finset.sum_congr rfl fun j _ => ?_
    have := (hind j).measure_inter_preimage_eq_mul {j} A (measurableSet_singleton j) hA
    rw [measureReal_def, this, ENNReal.toReal_mul]
    rfl
  · intro i _ j _ hij
    refine Set.disjoint_left.2 ?_
    rintro ω ⟨h1, _⟩ ⟨h2, _⟩
    exact hij (h1.symm.trans h2)
  · intro j _
    exact (hC (measurableSet_singleton j)).inter (hS j hA)

/-- two targets, weights that sum to one, and weights that do not -/
example : Weights [0.3, 0.7] ∧ ¬ Weights [1, 1] := by
  constructor
  · refine ⟨by simp, by norm_num, ?_⟩
    norm_num [tol]
  · rintro ⟨-, -, h⟩
    norm_num [tol] at h

/-- a generator that always takes the first option, a target that is always 5, a loss with the minimum at the mean -/
def firstRng : Rng Unit where
  pick _ size _ _ := (List.replicate size 0, ())
  pick_length := by intro n size w s; simp
  pick_lt := by
    intro n size w s hn i hi
    rw [List.eq_of_mem_replicate hi]
    omega

def five : Target Unit where
  rvs n _ := (List.replicate n 5, ())
  seeded n k := List.replicate n (5 + k)
  rvs_length := by intro n s; simp

example : Weights ([(five, 0.25), (five, (0.75 : ℝ))].map Prod.snd) := by
  refine ⟨by simp, by norm_num, ?_⟩
  norm_num [tol]

end Verif.Props
