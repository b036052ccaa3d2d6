import Verif.Model.Panels
import Verif.Props.PlotCall
import Mathlib.Tactic

/-!
# C97: one panel for each coordinate or sample, labels, references
-/

namespace Verif.Props

open Verif.Panels

/-- every coordinate below `dim` is drawn once, on the axes of the same number, and exactly the other axes are removed -/
structure AllDrawn (dim n : ℕ) (o : Out) : Prop where
  drawn : o.drawn = (List.range dim).map fun i => (i, i)
  enough : dim ≤ n
  removed : ∀ a, a ∈ o.removed ↔ dim ≤ a ∧ a < n

private theorem drawOn_all (dim n : ℕ) (h : dim ≤ n) : AllDrawn dim n (drawOn dim n) := by
  refine ⟨?_, h, ?_⟩
  · unfold drawOn
    simp only
    apply List.ext_getElem
    · simp [h]
    · intro i h1 h2
      simp
  · intro a
    unfold drawOn
    simp only
    split
    · rw [List.mem_drop_iff_getElem]
      constructor
      · rintro ⟨i, hi, rfl⟩
        simp at hi ⊢
        omega
      · rintro ⟨h1, h2⟩
        exact ⟨a - dim, by simp; omega, by simp; omega⟩
    · simp
      omega

/-- **C97**: the marginals of a Dirichlet or MvNormal of dimension two or more, on new axes: every coordinate on a panel of
its own, the remaining panels removed, the title as asked for. -/
theorem panels_new (jointDim dim : ℕ) (title ok : Bool) (h : 2 ≤ dim) :
    ∃ n, AllDrawn dim n (panels jointDim dim true .none title ok) ∧
      (panels jointDim dim true .none title ok).err = none ∧
      (panels jointDim dim true .none title ok).titled = title := by
  have hn : dim ≤ (Contours.colsRows dim).1 * (Contours.colsRows dim).2 := by
    unfold Contours.colsRows
    split <;> simp <;> omega
  have e : panels jointDim dim true .none title ok =
      { drawOn dim ((Contours.colsRows dim).1 * (Contours.colsRows dim).2) with titled := title } := by
    unfold panels
    rw [if_pos rfl]
    simp only
    rw [if_neg (by omega), if_neg (by omega)]
  rw [e]
  have := drawOn_all dim _ hn
  exact ⟨_, ⟨this.drawn, this.enough, this.removed⟩, rfl, rfl⟩

example : (panels 3 4 true .none true true).drawn = [(0, 0), (1, 1), (2, 2), (3, 3)] ∧
    (panels 3 4 true .none true true).removed = [4, 5] := by
  constructor <;> rfl

/-- **C97**: on axes that are given, if there are enough and no title is asked for, likewise. -/
theorem panels_given_partial (jointDim dim n : ℕ) (ok : Bool) (h : dim ≤ n) :
    AllDrawn dim n (panels jointDim dim true (.several n) false ok) ∧
      (panels jointDim dim true (.several n) false ok).err = none := by
  have := drawOn_all dim n h
  exact ⟨⟨this.drawn, this.enough, this.removed⟩, rfl⟩

/-- **C97**: with the default legend, drawing on axes that are given ends with an exception, whatever the dimension. -/
theorem panels_given_title (jointDim dim n : ℕ) (ok : Bool) :
    (panels jointDim dim true (.several n) true ok).err = some .nameError := rfl

/-- **C97**: with fewer axes than coordinates the last coordinates are left out, and no exception tells. -/
theorem panels_few (jointDim dim n : ℕ) (ok : Bool) (h : n < dim) :
    (panels jointDim dim true (.several n) false ok).err = none ∧
      ∀ a, (dim - 1, a) ∉ (panels jointDim dim true (.several n) false ok).drawn := by
  refine ⟨rfl, ?_⟩
  intro a ha
  have ha : (dim - 1, a) ∈ (List.range dim).zip (List.range n) := ha
  rw [List.mem_iff_getElem] at ha
  obtain ⟨i, hi, e⟩ := ha
  simp at hi e
  omega

/-- **C97**: one coordinate (a MvNormal of dimension one) cannot be drawn. -/
theorem panels_one (jointDim : ℕ) (title ok : Bool) :
    (panels jointDim 1 true .none title ok).err = some .attributeError ∧
      (panels jointDim 1 true .none title ok).drawn = [] := ⟨rfl, rfl⟩

/-- **C97**: the joint density is drawn, with the title asked for, in the one dimension where that is possible; otherwise
ValueError and nothing is drawn. -/
theorem panels_joint (jointDim dim : ℕ) (title : Bool) (axes : AxesArg) (ha : ∀ n, axes ≠ .several n) :
    (dim = jointDim → (panels jointDim dim false axes title true).joint = true ∧
      (panels jointDim dim false axes title true).err = none ∧
      (panels jointDim dim false axes title true).titled = title) ∧
    (dim ≠ jointDim → ∀ ok, panels jointDim dim false axes title ok = ⟨[], [], false, false, some .valueError⟩) := by
  constructor
  · intro h
    cases axes with
    | several n => exact absurd rfl (ha n)
    | none => simp [panels, h]
    | single => simp [panels, h]
  · intro h ok
    simp [panels, h]

/-- **C97**: a density that is zero on the triangulation: nothing is drawn and no exception is raised. -/
theorem panels_joint_zero (jointDim : ℕ) (title : Bool) (axes : AxesArg) :
    panels jointDim jointDim false axes title false = ⟨[], [], false, false, none⟩ := by
  simp [panels]

/-- the arguments of `plot` that matter for a marginal -/
def meantMarginal (k : PlotCall.Kind) : List String :=
  ["pointinterval", "interval", "levels", "ax"] ++ (if k = .ppf ∨ k = .isf then [] else ["support"]) ++
    (if k = .pdf then ["baseline"] else [])

/-- **C97**: each marginal is drawn by the drawing function of the same kind with the arguments of the user under the same
names, without a legend and without moments. -/
theorem marginal_drawn {α : Type} (k : PlotCall.Kind) (value : String → α) (off : α) :
    ∃ env, drawMarginal k value off = .ok ⟨drawerName k, env⟩ ∧
      (∀ n ∈ meantMarginal k, env.lookup n = some (.user (value n))) ∧
      env.lookup "legend" = some (.user off) ∧ env.lookup "moments" = some .default ∧
      env.lookup "dist" = some .self ∧ env.lookup "kwargs" = some (.dict []) := by
  cases k <;>
  · refine ⟨_, rfl, ?_, rfl, rfl, rfl, rfl⟩
    intro n hn
    simp [meantMarginal] at hn
    rcases hn with rfl | rfl | rfl | rfl | rfl | rfl <;> rfl

/-! ## Labels -/

/-- the value a letter stands for -/
def momentSpec (st : Stats) : Char → ℝ
  | 'm' => st.mean
  | 'd' => st.std
  | 'v' => st.var
  | 's' => st.skewness
  | _ => st.kurtosis

/-- its symbol -/
def symbolSpec : Char → String
  | 'm' => "μ"
  | 'd' => "σ"
  | 'v' => "σ²"
  | 's' => "γ"
  | _ => "κ"

def Letters (types : List Char) : Prop := ∀ t ∈ types, t = 'm' ∨ t = 'd' ∨ t = 'v' ∨ t = 's' ∨ t = 'k'

private theorem momentOf_ok (st : Stats) (t : Char) (h : t = 'm' ∨ t = 'd' ∨ t = 'v' ∨ t = 's' ∨ t = 'k') :
    momentOf st t = .ok (momentSpec st t) := by
  rcases h with rfl | rfl | rfl | rfl | rfl <;> rfl

private theorem momentName_ok (t : Char) (h : t = 'm' ∨ t = 'd' ∨ t = 'v' ∨ t = 's' ∨ t = 'k') :
    momentName t = .ok (symbolSpec t) := by
  rcases h with rfl | rfl | rfl | rfl | rfl <;> rfl

/-- **C97**: `moments` returns the values the letters stand for, one for each letter, in order and with repetitions. -/
theorem moments_values (st : Stats) (types : List Char) (h : Letters types) :
    moments st types = .ok (types.map (momentSpec st)) := by
  induction types with
  | nil => rfl
  | cons t r ih =>
    unfold moments at ih ⊢
    rw [List.mapM_cons, momentOf_ok st t (h t (by simp)), Except.ok_bind', ih (fun x hx => h x (by simp [hx]))]
    rfl

/-- **C97**: any other letter is a ValueError. -/
theorem moments_refused (st : Stats) (types : List Char) (h : ¬ Letters types) :
    moments st types = .error .valueError := by
  induction types with
  | nil => exact absurd (by intro t ht; cases ht) h
  | cons t r ih =>
    unfold moments at ih ⊢
    rw [List.mapM_cons]
    by_cases ht : t = 'm' ∨ t = 'd' ∨ t = 'v' ∨ t = 's' ∨ t = 'k'
    · rw [momentOf_ok st t ht, Except.ok_bind', ih]
      · rfl
      · intro hr
        apply h
        intro x hx
        rcases List.mem_cons.mp hx with rfl | hx
        · exact ht
        · exact hr x hx
    · have : momentOf st t = .error .valueError := by
        unfold momentOf
        rw [if_pos (by simpa using ht)]
      rw [this]
      rfl

private theorem items_eq (fmt : ℝ → String) (st : Stats) (types seen : List Char) (h : Letters types) :
    momentItems fmt seen (types.zip (types.map (momentSpec st))) =
      .ok ((types.filter (· ∉ seen)).eraseDups.map fun t => symbolSpec t ++ "=" ++ fmt (momentSpec st t)) := by
  induction types generalizing seen with
  | nil => rfl
  | cons t r ih =>
    have hr : Letters r := fun x hx => h x (by simp [hx])
    simp only [List.map_cons, List.zip_cons_cons, momentItems]
    by_cases hs : t ∈ seen
    · rw [if_pos hs, ih (t :: seen) hr]
      have e : r.filter (· ∉ t :: seen) = (t :: r).filter (· ∉ seen) := by
        rw [List.filter_cons_of_neg (by simpa using hs)]
        apply List.filter_congr
        intro x _
        by_cases hx : x = t
        · subst hx; simp [hs]
        · simp [hx]
      rw [e]
    · rw [if_neg hs, momentName_ok t (h t (by simp)), ih (t :: seen) hr]
      simp only [Except.ok_bind', Except.pure_eq]
      rw [List.filter_cons_of_pos (by simpa using hs), List.eraseDups_cons, List.map_cons]
      have e : r.filter (· ∉ t :: seen) = (r.filter (· ∉ seen)).filter (fun b => !b == t) := by
        rw [List.filter_filter]
        apply List.filter_congr
        intro x _
        by_cases hx : x = t
        · subst hx; simp
        · simp [hx]
      rw [e]

/-- the text of the moments: every letter once, in the order of first appearance, with its symbol and value -/
def momentsSpec (fmt : ℝ → String) (st : Stats) (types : List Char) : String :=
  "\n" ++ String.intercalate ", " (types.eraseDups.map fun t => symbolSpec t ++ "=" ++ fmt (momentSpec st t))

/-- **C97**: in labels and titles each of the letters asked for appears once with its own symbol and value. -/
theorem label_moments (fmt : ℝ → String) (st : Stats) (types : List Char) (h : Letters types) :
    getMoments fmt st types = .ok (momentsSpec fmt st types) := by
  unfold getMoments
  rw [moments_values st types h, Except.ok_bind', items_eq fmt st types [] h]
  simp [Except.ok_bind', Except.pure_eq, momentsSpec]

/-- the text of a label: the distribution and, if asked for, the moments -/
def labelSpec (fmt : ℝ → String) (repr : String) (st : Stats) (types : Option (List Char)) : String :=
  match types with
  | none => repr
  | some t => repr ++ momentsSpec fmt st t

/-- **C97**: no legend: neither label, title nor legend; `title`: the text as title only; `legend`: the text as label and
a legend; any other string: that string as label and a legend, without moments. -/
theorem label_legend (fmt : ℝ → String) (repr : String) (st : Stats) (types : Option (List Char))
    (h : ∀ t ∈ types, Letters t) :
    setLabel fmt repr st .none types = .ok ⟨none, none, false⟩ ∧
    setLabel fmt repr st (.str "title") types = .ok ⟨none, some (labelSpec fmt repr st types), false⟩ ∧
    setLabel fmt repr st (.str "legend") types = .ok ⟨some (labelSpec fmt repr st types), none, true⟩ ∧
    setLabel fmt repr st .other types = .ok ⟨some (labelSpec fmt repr st types), none, false⟩ ∧
    ∀ s, s ≠ "title" → s ≠ "legend" → setLabel fmt repr st (.str s) types = .ok ⟨some s, none, true⟩ := by
  cases types with
  | none =>
    refine ⟨rfl, rfl, rfl, rfl, ?_⟩
    intro s h1 h2
    simp [setLabel, h1, h2]
  | some t =>
    have ht := label_moments fmt st t (h t rfl)
    refine ⟨rfl, ?_, ?_, ?_, ?_⟩
    · simp [setLabel, ht, Except.ok_bind', Except.pure_eq, labelSpec]
    · simp [setLabel, ht, Except.ok_bind', Except.pure_eq, labelSpec]
    · simp [setLabel, ht, Except.ok_bind', Except.pure_eq, labelSpec]
    · intro s h1 h2
      simp [setLabel, h1, h2]

example : Letters ['m', 'd', 'm'] := by
  intro t ht
  simp at ht
  tauto

example : momentsSpec (fun _ => "1") ⟨1, 1, 1, 1, 1⟩ ['m', 'd', 'm'] = "\nμ=1, σ=1" := by decide

/-- **C97**: the documentation says that other letters are ignored; they are an exception. -/
theorem label_letters (fmt : ℝ → String) (repr : String) (st : Stats) (types : List Char) (h : ¬ Letters types) :
    setLabel fmt repr st (.str "title") (some types) = .error .valueError ∧
      setLabel fmt repr st (.str "legend") (some types) = .error .valueError := by
  have : getMoments fmt st types = .error .valueError := by
    unfold getMoments
    rw [moments_refused st types h]
    rfl
  constructor <;> simp [setLabel, this, Except.error_bind']

/-! ## Predictive panels -/

private theorem side_sq (n : ℕ) : n ≤ side n * side n := by
  have h0 : (0 : ℝ) ≤ n := Nat.cast_nonneg n
  have h : (n : ℝ) ^ (1 / 2 : ℝ) ≤ side n := Nat.le_ceil _
  have e : ((n : ℝ) ^ (1 / 2 : ℝ)) * ((n : ℝ) ^ (1 / 2 : ℝ)) = n := by
    rw [← Real.sqrt_eq_rpow]
    exact Real.mul_self_sqrt h0
  have hp : (0 : ℝ) ≤ (n : ℝ) ^ (1 / 2 : ℝ) := Real.rpow_nonneg h0 _
  have : (n : ℝ) ≤ (side n : ℝ) * side n := by
    calc (n : ℝ) = _ := e.symm
      _ ≤ _ := mul_le_mul h h hp (le_trans hp h)
  exact_mod_cast this

/-- **C97**: the figure of `ppa` has a panel for every sample to be shown; a sample without any is a ValueError. -/
theorem pp_panels_new (idxs : List ℕ) :
    (idxs ≠ [] → ∃ l, ppPanels none idxs = .ok l ∧ l.map Prod.snd = idxs ∧ (l.map Prod.fst) = List.range idxs.length) ∧
    (idxs = [] → ppPanels none idxs = .error .valueError) := by
  constructor
  · intro h
    have hs := side_sq idxs.length
    have h1 : side idxs.length ≠ 0 := by
      intro e
      rw [e] at hs
      exact h (List.length_eq_zero_iff.mp (by omega))
    refine ⟨_, by unfold ppPanels; rw [if_neg h1], ?_, ?_⟩
    · rw [List.map_snd_zip]
      simpa using hs
    · apply List.ext_getElem
      · simpa using hs
      · intro i h1 h2
        simp
  · rintro rfl
    have : side 0 = 0 := by simp [side]
    simp [ppPanels, this]

/-- **C97**: in later rounds the first samples are shown, as many as there are panels. -/
theorem pp_panels_again (n : ℕ) (idxs : List ℕ) :
    ∃ l, ppPanels (some n) idxs = .ok l ∧ l.map Prod.snd = idxs.take n := by
  refine ⟨_, rfl, ?_⟩
  apply List.ext_getElem
  · simp
  · intro i h1 h2
    simp

/-- **C97**: with a shared axis every panel is seen completely. -/
theorem pp_shared_limits (l : List (ℝ × ℝ)) (h : l ≠ []) :
    ∃ a b, sharedLimits l = some (a, b) ∧ ∀ p ∈ l, (a : ℝ) ≤ p.1 ∧ p.2 ≤ b := by
  obtain ⟨p, r, rfl⟩ := List.exists_cons_of_ne_nil h
  refine ⟨_, _, rfl, ?_⟩
  have key : ∀ (r : List (ℝ × ℝ)) (p : ℝ × ℝ),
      let l := r.foldl (fun (a : ℝ × ℝ) q => (min q.1 a.1, max q.2 a.2)) p
      (l.1 ≤ p.1 ∧ p.2 ≤ l.2) ∧ ∀ q ∈ r, l.1 ≤ q.1 ∧ q.2 ≤ l.2 := by
    intro r
    induction r with
    | nil => intro p; simp
    | cons q t ih =>
      intro p
      obtain ⟨⟨h1, h2⟩, h3⟩ := ih (min q.1 p.1, max q.2 p.2)
      simp only [List.foldl_cons] at *
      refine ⟨⟨le_trans h1 (min_le_right _ _), le_trans (le_max_right _ _) h2⟩, ?_⟩
      intro x hx
      rcases List.mem_cons.mp hx with rfl | hx
      · exact ⟨le_trans h1 (min_le_left _ _), le_trans (le_max_left _ _) h2⟩
      · exact h3 x hx
  obtain ⟨h1, h2⟩ := key r p
  intro q hq
  rcases List.mem_cons.mp hq with rfl | hq
  · exact ⟨le_trans (Int.floor_le _) h1.1, le_trans h1.2 (Int.le_ceil _)⟩
  · exact ⟨le_trans (Int.floor_le _) (h2 q hq).1, le_trans (h2 q hq).2 (Int.le_ceil _)⟩

/-- **C97**: the pooled panel shows the values of exactly the selected samples, if one of them is not the first; with none
selected, of all. -/
theorem pooled_selected_partial (samples : List (List ℝ)) (selected : List ℕ) (h : ∀ i ∈ selected, i < samples.length) :
    ((∃ i ∈ selected, i ≠ 0) →
      pooled samples selected = .ok (selected.flatMap fun i => samples.getD i [])) ∧
    (selected = [] → pooled samples selected = .ok samples.flatten) := by
  constructor
  · intro hi
    have h1 : selected.any (· ≠ 0) = true := by
      rw [List.any_eq_true]
      obtain ⟨i, hi, h0⟩ := hi
      exact ⟨i, hi, by simpa using h0⟩
    have h2 : selected.all (· < samples.length) = true := by
      rw [List.all_eq_true]
      intro i hi
      simpa using h i hi
    unfold pooled
    rw [if_pos h1, if_pos h2]
  · rintro rfl
    rfl

/-- **C97**: with only the first sample selected all samples are pooled. -/
theorem pooled_first : ∃ samples : List (List ℝ), pooled samples [0] = .ok [1, 2] ∧ samples.getD 0 [] = [1] :=
  ⟨[[1], [2]], by simp [pooled], rfl⟩

/-- **C97**: every reference value has one vertical line, and of a dictionary one label at its value. -/
theorem references_lines (l : List ℝ) (d : List (String × ℝ)) (v : ℝ) :
    references (.list l) = .ok (l, []) ∧ references (.num v) = references (.list [v]) ∧
      references .none = references (.list []) ∧
      (∃ lines labels, references (.dict d) = .ok (lines, labels) ∧ labels = d ∧
        lines.length = d.length ∧ ∀ n r, (n, r) ∈ d → r ∈ lines) := by
  refine ⟨rfl, rfl, rfl, _, _, rfl, rfl, by simp, ?_⟩
  intro n r h
  exact List.mem_map.mpr ⟨_, h, rfl⟩

/-- **C97**: an integer of numpy as the only reference is a TypeError. -/
theorem references_numpy (v : ℤ) : references (.npInt v) = .error .typeError := rfl

end Verif.Props
