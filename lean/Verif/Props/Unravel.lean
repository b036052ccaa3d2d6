import Verif.Model.Ppl
import Mathlib.Tactic

/-!
# C41: the parameter matrix is split without loss or overlap
-/

set_option linter.unusedSimpArgs false

namespace Verif.Props
open Verif Verif.Ppl

private theorem unravel_aux (rows : List (List ℝ)) (info : List VarInfo) (start : ℕ)
    (hsize : ∀ v ∈ info, v.size = v.shape.prod)
    (hrow : ∀ r ∈ rows, r.length = start + (info.map VarInfo.size).sum) :
    ∃ res, unravel rows rows.length start info = .ok res ∧
      res.map (fun x => x.1) = info.map VarInfo.name ∧
      List.Forall₂ (fun (v : VarInfo) (x : String × List (List ℝ) × List ℕ) =>
        x.2.1.length = rows.length ∧ (∀ c ∈ x.2.1, c.length = v.size) ∧
        x.2.2 = (rows.length :: v.shape).filter (· ≠ 1)) info res ∧
      (∀ r (hr : r < rows.length), (res.map fun x => x.2.1.getD r []).flatten = rows[r].drop start) := by
  induction info generalizing start with
  | nil =>
    refine ⟨[], rfl, rfl, .nil, ?_⟩
    intro r hr
    have := hrow _ (List.getElem_mem hr)
    simp only [List.map_nil, List.sum_nil, add_zero] at this
    simp [← this]
  | cons v vs ih =>
    have hcols : ∀ c ∈ columns rows start v.size, c.length = v.size := by
      intro c hc
      simp only [columns, List.mem_map] at hc
      obtain ⟨r, hr, rfl⟩ := hc
      have := hrow r hr
      simp only [List.map_cons, List.sum_cons] at this
      simp; omega
    have hlen : (columns rows start v.size).length = rows.length := by simp [columns]
    have hsum : ((columns rows start v.size).map List.length).sum = rows.length * v.shape.prod := by
      rw [← hsize v (by simp), ← hlen]
      have : (columns rows start v.size).map List.length =
          List.replicate (columns rows start v.size).length v.size := by
        rw [List.eq_replicate_iff]
        refine ⟨by simp, ?_⟩
        intro b hb
        simp only [List.mem_map] at hb
        obtain ⟨c, hc, rfl⟩ := hb
        exact hcols c hc
      rw [this]; simp
    obtain ⟨res, h1, h2, h3, h4⟩ := ih (start + v.size) (fun x hx => hsize x (by simp [hx])) (by
      intro r hr
      have := hrow r hr
      simp only [List.map_cons, List.sum_cons] at this
      omega)
    refine ⟨(v.name, columns rows start v.size, (rows.length :: v.shape).filter (· ≠ 1)) :: res, ?_, ?_,
      ?_, ?_⟩
    · simp only [unravel, reshaped, hsum, if_true, Except.ok_bind', h1, Except.pure_eq]
    · simp [h2]
    · exact .cons ⟨hlen, hcols, rfl⟩ h3
    · intro r hr
      simp only [List.map_cons, List.flatten_cons, h4 r hr]
      have : (columns rows start v.size).getD r [] = (rows[r].drop start).take v.size := by
        simp [columns, hr]
      rw [this, add_comm start v.size, ← List.drop_drop, List.drop_drop, add_comm, ← List.drop_drop]
      exact List.take_append_drop _ _

/-- Every variable gets its own number of columns, and for every draw the pieces put one after the other
are exactly the row: every column is used once, in order. -/
theorem unravel_complete (rows : List (List ℝ)) (info : List VarInfo)
    (hsize : ∀ v ∈ info, v.size = v.shape.prod)
    (hrow : ∀ r ∈ rows, r.length = (info.map VarInfo.size).sum) :
    ∃ res, unravel rows rows.length 0 info = .ok res ∧
      res.map (fun x => x.1) = info.map VarInfo.name ∧
      List.Forall₂ (fun (v : VarInfo) (x : String × List (List ℝ) × List ℕ) =>
        x.2.1.length = rows.length ∧ (∀ c ∈ x.2.1, c.length = v.size) ∧
        x.2.2 = (rows.length :: v.shape).filter (· ≠ 1)) info res ∧
      (∀ r (hr : r < rows.length), (res.map fun x => x.2.1.getD r []).flatten = rows[r]) := by
  simpa using unravel_aux rows info 0 hsize (by simpa using hrow)

example : unravel [[1, 2, 3], [4, 5, 6]] 2 0 [⟨"a", [], 1, []⟩, ⟨"b", [2], 2, []⟩] =
    .ok [("a", [[1], [4]], [2]), ("b", [[2, 3], [5, 6]], [2, 2])] := by
  simp [unravel, columns, reshaped]

/-- entry `j` of variable `i` in draw `r` is column `(sizes of the earlier variables) + j` -/
theorem unravel_position (rows : List (List ℝ)) (pre post : List VarInfo) (v : VarInfo)
    (hsize : ∀ w ∈ pre ++ v :: post, w.size = w.shape.prod)
    (hrow : ∀ r ∈ rows, r.length = ((pre ++ v :: post).map VarInfo.size).sum) :
    ∃ res x, unravel rows rows.length 0 (pre ++ v :: post) = .ok res ∧ res[pre.length]? = some x ∧
      x.1 = v.name ∧
      x.2.1 = rows.map fun r => (r.drop (pre.map VarInfo.size).sum).take v.size := by
  suffices h : ∀ (pre : List VarInfo) (start : ℕ)
      (_ : ∀ w ∈ pre ++ v :: post, w.size = w.shape.prod)
      (_ : ∀ r ∈ rows, r.length = start + ((pre ++ v :: post).map VarInfo.size).sum),
      ∃ res x, unravel rows rows.length start (pre ++ v :: post) = .ok res ∧
        res[pre.length]? = some x ∧ x.1 = v.name ∧
        x.2.1 = columns rows (start + (pre.map VarInfo.size).sum) v.size by
    simpa [columns] using h pre 0 hsize (by simpa using hrow)
  intro pre
  induction pre with
  | nil =>
    intro start hs hr
    obtain ⟨res, h1, h2, h3, h4⟩ := unravel_aux rows (v :: post) start hs hr
    simp only [List.nil_append] at h1 ⊢
    have h1' := h1
    simp only [unravel] at h1'
    cases hq : reshaped rows.length v.shape ((columns rows start v.size).map List.length).sum with
    | error e => rw [hq] at h1'; simp at h1'
    | ok sh =>
      rw [hq, Except.ok_bind'] at h1'
      cases hr' : unravel rows rows.length (start + v.size) post with
      | error e => rw [hr'] at h1'; simp at h1'
      | ok rest =>
        rw [hr', Except.ok_bind'] at h1'
        simp only [Except.pure_eq, Except.ok.injEq] at h1'
        subst h1'
        exact ⟨_, _, h1, by simp; rfl, rfl, by simp⟩
  | cons p ps ih =>
    intro start hs hr
    obtain ⟨res, h1, h2, h3, h4⟩ := unravel_aux rows (p :: (ps ++ v :: post)) start
      (by simpa using hs) (by simpa using hr)
    obtain ⟨res', x, g1, g2, g3, g4⟩ := ih (start + p.size)
      (fun w hw => hs w (by simp at hw ⊢; tauto))
      (fun r hr' => by
        have := hr r hr'
        simp only [List.cons_append, List.map_cons, List.sum_cons] at this ⊢
        omega)
    simp only [List.cons_append] at h1 ⊢
    have h1' := h1
    simp only [unravel] at h1'
    cases hq : reshaped rows.length p.shape ((columns rows start p.size).map List.length).sum with
    | error e => rw [hq] at h1'; simp at h1'
    | ok sh =>
      rw [hq, Except.ok_bind', g1, Except.ok_bind'] at h1'
      simp only [Except.pure_eq, Except.ok.injEq] at h1'
      subst h1'
      refine ⟨_, x, h1, by simpa using g2, g3, ?_⟩
      rw [g4]
      simp [add_assoc]

/-- a matrix with too few columns is rejected -/
theorem unravel_narrow (rows : List (List ℝ)) (info : List VarInfo) (w : ℕ) (hne : rows ≠ [])
    (hsize : ∀ v ∈ info, v.size = v.shape.prod) (hrow : ∀ r ∈ rows, r.length = w)
    (hw : w < (info.map VarInfo.size).sum) :
    unravel rows rows.length 0 info = .error .valueError := by
  suffices h : ∀ (info : List VarInfo) (start : ℕ), (∀ v ∈ info, v.size = v.shape.prod) → start ≤ w →
      w < start + (info.map VarInfo.size).sum →
      unravel rows rows.length start info = .error .valueError by
    exact h info 0 hsize (by omega) (by simpa using hw)
  intro info
  induction info with
  | nil => intro start _ h1 h2; simp at h2; omega
  | cons v vs ih =>
    intro start hs h1 h2
    simp only [List.map_cons, List.sum_cons] at h2
    have hsum : ((columns rows start v.size).map List.length).sum =
        rows.length * min v.size (w - start) := by
      have : (columns rows start v.size).map List.length =
          List.replicate rows.length (min v.size (w - start)) := by
        rw [List.eq_replicate_iff]
        refine ⟨by simp [columns], ?_⟩
        intro b hb
        simp only [List.mem_map, columns] at hb
        obtain ⟨c, ⟨r, hr, rfl⟩, rfl⟩ := hb
        simp [hrow r hr]
      rw [this]; simp
    have hpos : 0 < rows.length := List.length_pos_iff.2 hne
    simp only [unravel, reshaped, hsum, ← hs v (by simp)]
    by_cases hfit : v.size ≤ w - start
    · rw [min_eq_left hfit, if_pos rfl, Except.ok_bind',
        ih (start + v.size) (fun x hx => hs x (by simp [hx])) (by omega) (by omega)]
      rfl
    · rw [if_neg]
      · rfl
      · intro h
        have := Nat.eq_of_mul_eq_mul_left hpos h
        omega

example : unravel [[1, 2]] 1 0 [⟨"a", [], 1, []⟩, ⟨"b", [2], 2, []⟩] = .error .valueError :=
  unravel_narrow [[1, 2]] _ 2 (by simp) (by simp) (by simp) (by simp)

/-- the per-component refit reads component `i` of a vector variable as column `i`; that works for a
genuine vector and more than one draw -/
theorem vector_components (iterations n : ℕ) (hi : iterations ≠ 1) (hn : n ≠ 1) (i : ℕ) (h : i < n) :
    columnIndex ((iterations :: [n]).filter (· ≠ 1)) i = .ok () := by
  simp [columnIndex, hi, hn, h]

/-- ... and fails for a matrix variable: shape (2, 3) has six components but only two columns -/
theorem matrix_components_fail (iterations : ℕ) (hi : iterations ≠ 1) :
    columnIndex ((iterations :: [2, 3]).filter (· ≠ 1)) 2 = .error .indexError := by
  simp [columnIndex, hi]

end Verif.Props
