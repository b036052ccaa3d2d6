import Verif.Model.Source
import Verif.Props.ExplorerBambi

/-!
# C108: opening predictive_explorer
-/

set_option linter.unusedSimpArgs false

namespace Verif.Props
open Verif Verif.Extra Verif.Explorer Verif.Spec

variable {D : Type}

private theorem strip_clean (l : List Char) : '#' ∉ stripComments l ∧ '#' ∉ stripComments.skip l := by
  induction l with
  | nil => simp [stripComments, stripComments.skip]
  | cons c l ih =>
    rw [stripComments, stripComments.skip]
    constructor
    · split_ifs with h
      · exact ih.2
      · rw [List.mem_cons, not_or]
        exact ⟨fun e => h e.symm, ih.1⟩
    · split_ifs with h
      · rw [List.mem_cons, not_or]
        exact ⟨fun e => by rw [h] at e; simp at e, ih.1⟩
      · exact ih.2

private theorem strip_twice (l : List Char) : stripComments (stripComments l) = stripComments l :=
  stripComments_none _ (strip_clean l).1

section
variable (word space : Char → Bool) (slots : List Char → Except Err (List Slot)) (num : D → Option ℝ)

private theorem parseFor_strip (vars : List (List Char)) (e : Library) (s : List Char) :
    parseFor word space slots vars e (stripComments s) = parseFor word space slots vars e s := by
  cases e <;> simp only [parseFor, parse, parseBambi, strip_twice]

/-- a line of the source: what Python runs, and a comment or nothing -/
structure Line where
  code : List Char
  comment : List Char

/-- no `#` in the code, and the comment begins with one -/
structure Line.Ok (l : Line) : Prop where
  code : '#' ∉ l.code ∧ '\n' ∉ l.code
  comment : '\n' ∉ l.comment ∧ ∀ c, l.comment.head? = some c → c = '#'

private theorem strip_code (a b : List Char) (h : '#' ∉ a) : stripComments (a ++ b) = a ++ stripComments b := by
  induction a with
  | nil => rfl
  | cons c a ih =>
    simp only [List.mem_cons, not_or] at h
    rw [List.cons_append, stripComments, if_neg (Ne.symm h.1), ih h.2, List.cons_append]

private theorem skip_comment (a b : List Char) (h : '\n' ∉ a) (hb : b = [] ∨ b.head? = some '\n') :
    stripComments.skip (a ++ b) = stripComments b := by
  induction a with
  | nil =>
    rcases hb with rfl | hb
    · rfl
    · cases b with
      | nil => rfl
      | cons c b =>
        simp only [List.head?_cons, Option.some.injEq] at hb
        subst hb
        simp [stripComments, stripComments.skip]
  | cons c a ih =>
    simp only [List.mem_cons, not_or] at h
    rw [List.cons_append, stripComments.skip, if_neg (Ne.symm h.1), ih h.2]

private theorem strip_lines (ls : List Line) (h : ∀ l ∈ ls, l.Ok) :
    stripComments (['\n'].intercalate (ls.map fun l => l.code ++ l.comment)) =
      ['\n'].intercalate (ls.map Line.code) := by
  have one : ∀ (l : Line) (b : List Char), l.Ok → (b = [] ∨ b.head? = some '\n') →
      stripComments (l.code ++ l.comment ++ b) = l.code ++ stripComments b := by
    intro l b hl hb
    rw [List.append_assoc, strip_code _ _ hl.code.1]
    cases hc : l.comment with
    | nil => rfl
    | cons c k =>
      have h1 := hl.comment
      rw [hc] at h1
      have := h1.2 c rfl
      subst this
      simp only [List.mem_cons, not_or] at h1
      rw [List.cons_append, stripComments, if_pos rfl, skip_comment k b h1.1.2 hb]
  induction ls with
  | nil => rfl
  | cons l ls ih =>
    have hl := h l (by simp)
    cases ls with
    | nil =>
      have := one l [] hl (.inl rfl)
      simpa [List.intercalate, stripComments] using this
    | cons m ls =>
      have hrec := ih fun x hx => h x (by simp [hx])
      rw [List.map_cons, List.map_cons] at hrec ⊢
      rw [List.map_cons, List.map_cons]
      have h1 : ∀ (x y : List Char) (r : List (List Char)), ['\n'].intercalate (x :: y :: r) =
          x ++ ('\n' :: ['\n'].intercalate (y :: r)) := by
        intro x y r
        simp [List.intercalate, List.intersperse]
      rw [h1, h1, one l _ hl (.inr rfl), stripComments, if_neg (by decide), hrec]

/-- C108: comments have no influence on the text boxes and the engine, whatever stands in them. -/
theorem comments_ignored (f : FModel D) (engine : Option Library) (ls : List Line) (h : ∀ l ∈ ls, l.Ok) :
    predictiveExplorer word space slots num
        { f with source := ['\n'].intercalate (ls.map fun l => l.code ++ l.comment) } engine =
      predictiveExplorer word space slots num { f with source := ['\n'].intercalate (ls.map Line.code) } engine := by
  unfold predictiveExplorer inspectSource
  simp only [Except.pure_eq, strip_lines ls h]
  rw [← strip_lines ls h, strip_twice]

/-- C108: the argument `engine` has no influence. -/
theorem engine_ignored (f : FModel D) (e e' : Option Library) :
    predictiveExplorer word space slots num f e = predictiveExplorer word space slots num f e' := rfl

private theorem mapM_boxes (m : List Char → Option Known) (ps : List (Par D)) (boxes : List (List Char × TextBox)) :
    textBoxes num m ps = .ok boxes ↔
      boxes.map Prod.fst = ps.map Par.name ∧
      ∀ (i : ℕ) p b, ps[i]? = some p → boxes[i]? = some b → textBox m p.name (p.default.bind num) = .ok b.2 := by
  unfold textBoxes
  induction ps generalizing boxes with
  | nil =>
    cases boxes with
    | nil => simp
    | cons b bs => simp
  | cons p ps ih =>
    rw [List.mapM_cons]
    cases hb : textBox m p.name (p.default.bind num) with
    | error e =>
      constructor
      · intro h
        simp only [hb, Except.error_bind', reduceCtorEq] at h
      · rintro ⟨h1, h2⟩
        cases boxes with
        | nil => simp at h1
        | cons b bs =>
          have := h2 0 p b rfl rfl
          rw [hb] at this
          simp at this
    | ok x =>
      simp only [Except.ok_bind', Except.pure_eq]
      cases boxes with
      | nil =>
        constructor
        · intro h
          cases hr : (List.mapM (fun p : Par D => do
              let b ← textBox m p.name (p.default.bind num)
              Except.ok (p.name, b)) ps) with
          | error e => rw [hr] at h; simp at h
          | ok r => rw [hr] at h; simp at h
        · rintro ⟨h1, -⟩
          simp at h1
      | cons b bs =>
        have hi := ih bs
        simp only [Except.pure_eq] at hi
        constructor
        · intro h
          cases hr : (List.mapM (fun p : Par D => do
              let b ← textBox m p.name (p.default.bind num)
              Except.ok (p.name, b)) ps) with
          | error e => rw [hr] at h; simp at h
          | ok r =>
            rw [hr] at h
            simp only [Except.ok_bind', Except.ok.injEq, List.cons.injEq] at h
            obtain ⟨rfl, rfl⟩ := h
            obtain ⟨g1, g2⟩ := hi.1 hr
            refine ⟨by simp [g1], ?_⟩
            intro i q c hq hc
            cases i with
            | zero =>
              simp only [List.getElem?_cons_zero, Option.some.injEq] at hq hc
              subst hq hc
              exact hb
            | succ i => exact g2 i q c (by simpa using hq) (by simpa using hc)
        · rintro ⟨h1, h2⟩
          simp only [List.map_cons, List.cons.injEq] at h1
          have hx := h2 0 p b rfl rfl
          rw [hb] at hx
          simp only [Except.ok.injEq] at hx
          rw [hi.2 ⟨h1.2, fun i q c hq hc => h2 (i + 1) q c (by simpa using hq) (by simpa using hc)⟩]
          simp only [Except.ok_bind', Except.ok.injEq, List.cons.injEq, and_true]
          exact Prod.ext h1.1.symm hx

/-- C108: when the explorer opens, the function was called once with its defaults (NaN where there is none), the engine is
the one recognised in what that call returned, and there is exactly one text box for each parameter, in their order; the
value of a parameter with a number as default is that number. -/
theorem explorer_opens (f : FModel D) (engine : Option Library) (boxes : List (List Char × TextBox)) (used : Library)
    (h : predictiveExplorer word space slots num f engine = .ok (boxes, used)) :
    ∃ b, f.call (f.params.map fun p => (p.name, p.default)) = .ok b ∧
      (used = .pymc ↔ b.basicRVs = true) ∧ (used = .bambi ↔ b.basicRVs = false ∧ b.formula = true) ∧
      boxes.map Prod.fst = f.params.map Par.name ∧
      ∀ (i : ℕ) p x d, f.params[i]? = some p → boxes[i]? = some x → p.default.bind num = some d → x.2.value = d := by
  unfold predictiveExplorer inspectSource at h
  cases hb : f.call (f.params.map fun p => (p.name, p.default)) with
  | error e => rw [hb] at h; simp at h
  | ok b =>
    rw [hb] at h
    simp only [Except.ok_bind', Except.pure_eq] at h
    cases hm : parseFor word space slots (f.params.map Par.name) (getEngine b) (stripComments f.source) with
    | error e => rw [hm] at h; simp at h
    | ok m =>
      rw [hm] at h
      simp only [Except.ok_bind'] at h
      cases ht : textBoxes num m f.params with
      | error e => rw [ht] at h; simp at h
      | ok bs =>
        rw [ht] at h
        simp only [Except.ok_bind', Except.ok.injEq, Prod.mk.injEq] at h
        obtain ⟨rfl, rfl⟩ := h
        obtain ⟨g1, g2⟩ := (mapM_boxes num m f.params bs).1 ht
        refine ⟨b, rfl, ?_, ?_, g1, ?_⟩
        · unfold getEngine
          cases b.basicRVs <;> cases b.formula <;> simp
        · unfold getEngine
          cases b.basicRVs <;> cases b.formula <;> simp
        · intro i p x d hp hx hd
          have := g2 i p x hp hx
          unfold textBox at this
          rw [hd] at this
          cases hk : m p.name with
          | none => rw [hk] at this; simp at this
          | some k =>
            rw [hk] at this
            dsimp only at this
            cases hs : pyGet k.1 k.2.1 with
            | error e => rw [hs] at this; simp at this
            | ok s =>
              rw [hs] at this
              simp only [Except.ok_bind', Except.pure_eq, Except.ok.injEq, Option.getD_some] at this
              rw [← this]

/-- C108: the converse: the explorer opens whenever the call returns, the source is read and every parameter has a text
box. -/
theorem explorer_opens_if (f : FModel D) (engine : Option Library) (b : Built)
    (hb : f.call (f.params.map fun p => (p.name, p.default)) = .ok b) (m : List Char → Option Known)
    (hm : parseFor word space slots (f.params.map Par.name) (getEngine b) f.source = .ok m)
    (hbox : ∀ p ∈ f.params, ∃ x, textBox m p.name (p.default.bind num) = .ok x) :
    ∃ boxes, predictiveExplorer word space slots num f engine = .ok (boxes, getEngine b) ∧
      ∀ (i : ℕ) p x, f.params[i]? = some p → boxes[i]? = some x →
        x.1 = p.name ∧ textBox m p.name (p.default.bind num) = .ok x.2 := by
  have key : ∀ ps : List (Par D), (∀ p ∈ ps, ∃ x, textBox m p.name (p.default.bind num) = .ok x) →
      ∃ boxes, textBoxes num m ps = .ok boxes := by
    intro ps
    induction ps with
    | nil => exact fun _ => ⟨[], rfl⟩
    | cons p ps ih =>
      intro h
      obtain ⟨x, hx⟩ := h p (by simp)
      obtain ⟨bs, hbs⟩ := ih fun q hq => h q (by simp [hq])
      refine ⟨(p.name, x) :: bs, ?_⟩
      unfold textBoxes at hbs ⊢
      rw [List.mapM_cons, hx, hbs]
      rfl
  obtain ⟨boxes, hbs⟩ := key _ hbox
  refine ⟨boxes, ?_, ?_⟩
  · unfold predictiveExplorer inspectSource
    rw [hb]
    simp only [Except.ok_bind', Except.pure_eq]
    rw [parseFor_strip, hm]
    simp only [Except.ok_bind']
    rw [hbs]
    rfl
  · obtain ⟨g1, g2⟩ := (mapM_boxes num m f.params boxes).1 hbs
    intro i p x hp hx
    refine ⟨?_, g2 i p x hp hx⟩
    have : (boxes.map Prod.fst)[i]? = (f.params.map Par.name)[i]? := by rw [g1]
    rw [List.getElem?_map, List.getElem?_map, hp, hx] at this
    simpa using this

/-- C108: a function that raises an error when it is called with NaN for the parameters without a default cannot be
explored: the error is passed on, whatever the source is. -/
theorem nan_call_fails (f : FModel D) (engine : Option Library) (e : Err)
    (h : f.call (f.params.map fun p => (p.name, p.default)) = .error e) :
    predictiveExplorer word space slots num f engine = .error e := by
  unfold predictiveExplorer inspectSource
  rw [h]
  rfl

end

/-! ## Examples and counterexamples -/

private noncomputable def twoSlots : List Slot := [⟨0, ⊥, ⊤⟩, ⟨1, ((eps : ℝ) : EReal), ⊤⟩]

/-- `def f(mu, s=2):` with a PyMC model -/
private noncomputable def pymcModel (src : List Char) : FModel ℝ :=
  { source := src
    params := [⟨"mu".toList, none⟩, ⟨"s".toList, some 2⟩]
    call := fun _ => .ok ⟨true, false⟩ }

private def commented : List Line :=
  [⟨"with pm.Model() as m: ".toList, "# not Gamma(s, mu)".toList⟩, ⟨"    pm.Normal(\"y\", mu, s)".toList, []⟩,
    ⟨"return m".toList, "# the model".toList⟩]

private theorem commented_ok : ∀ l ∈ commented, l.Ok := by
  intro l hl
  simp only [commented, List.mem_cons, List.not_mem_nil, or_false] at hl
  rcases hl with rfl | rfl | rfl
  · exact ⟨by decide, by decide, by intro c hc; simpa using hc.symm⟩
  · exact ⟨by decide, by decide, by intro c hc; simp at hc⟩
  · exact ⟨by decide, by decide, by intro c hc; simpa using hc.symm⟩

private def commentedText : List Char := ['\n'].intercalate (commented.map fun l => l.code ++ l.comment)

private theorem pymc_calls : findAll (stripComments commentedText) = [("Normal".toList, "\"y\", mu, s".toList)] := by
  decide +kernel

private theorem pymc_args : parseArguments asciiWord blankChar ["mu".toList, "s".toList] .pymc "\"y\", mu, s".toList =
      [(none, "mu".toList, 0), (none, "s".toList, 1)] := by decide +kernel

private theorem pymc_read : Gives (parse asciiWord blankChar (fun _ => .ok twoSlots) ["mu".toList, "s".toList] .pymc
    commentedText) fun m => m "mu".toList = some (twoSlots, 0, none) ∧ m "s".toList = some (twoSlots, 1, none) := by
  unfold parse
  rw [pymc_calls, parseCalls, pymc_args]
  refine ⟨_, rfl, ?_, ?_⟩
  · rw [Function.update_of_ne (by decide), Function.update_self]
  · rw [Function.update_self]

/-- a PyMC model with comments, opened with the engine "bambi" requested: the value of `s` is its default 2, that of `mu`
the starting value 0 -/
example : ∃ boxes, predictiveExplorer asciiWord blankChar (fun _ => .ok twoSlots) some (pymcModel commentedText)
    (some .bambi) = .ok (boxes, .pymc) ∧ boxes.map (fun b => (b.1, b.2.value)) = [("mu".toList, 0), ("s".toList, 2)] := by
  obtain ⟨m, hm, h1, h2⟩ := pymc_read
  have b1 : textBox m "mu".toList none = .ok ⟨0, ⊥, ⊤⟩ := by
    unfold textBox
    rw [h1]
    rfl
  have b2 : textBox m "s".toList (some 2) = .ok ⟨2, ((eps : ℝ) : EReal), ⊤⟩ := by
    unfold textBox
    rw [h2]
    rfl
  obtain ⟨boxes, hb, hx⟩ := explorer_opens_if asciiWord blankChar (fun _ => .ok twoSlots) some (pymcModel commentedText)
    (some .bambi) ⟨true, false⟩ rfl m hm (by
      intro p hp
      simp only [pymcModel, List.mem_cons, List.not_mem_nil, or_false] at hp
      rcases hp with rfl | rfl
      · exact ⟨_, b1⟩
      · exact ⟨_, b2⟩)
  have hn := (explorer_opens _ _ _ _ _ _ _ _ hb).choose_spec.2.2.2.1
  refine ⟨boxes, hb, ?_⟩
  have hl : boxes.length = 2 := by
    have := congrArg List.length hn
    simpa [pymcModel] using this
  obtain ⟨x, y, rfl⟩ := List.length_eq_two.1 hl
  have hx1 := hx 0 _ x rfl rfl
  have hx2 := hx 1 _ y rfl rfl
  have e1 : x.2 = ⟨0, ⊥, ⊤⟩ := by
    have := hx1.2.symm.trans b1
    simpa using this
  have e2 : y.2 = ⟨2, ((eps : ℝ) : EReal), ⊤⟩ := by
    have := hx2.2.symm.trans b2
    simpa using this
  rw [List.map_cons, List.map_cons, List.map_nil, hx1.1, hx2.1, e1, e2]

/-- the comments of the example can be left out -/
example : predictiveExplorer asciiWord blankChar (fun _ => .ok twoSlots) some (pymcModel commentedText) none =
    predictiveExplorer asciiWord blankChar (fun _ => .ok twoSlots) some
      (pymcModel (['\n'].intercalate (commented.map Line.code))) none :=
  comments_ignored asciiWord blankChar (fun _ => .ok twoSlots) some (pymcModel []) none commented commented_ok

/-- a function that checks its arguments -/
example : predictiveExplorer asciiWord blankChar (fun _ => .ok twoSlots) some
    { pymcModel commentedText with
      call := fun vs => if vs.any (fun v => v.2.isNone) then .error .valueError else .ok ⟨true, false⟩ } none =
    .error .valueError :=
  nan_call_fails _ _ _ _ _ _ _ rfl

/-- C108: a `#` in a string is taken for the beginning of a comment: a variable named `#1` cannot be used, although the
function runs. -/
theorem hash_in_string_fails : predictiveExplorer asciiWord blankChar (fun _ => .ok twoSlots) some
    (pymcModel "pm.Normal(\"#1\", mu, s)".toList) none = .error .keyError := by
  have h : findAll (stripComments (stripComments "pm.Normal(\"#1\", mu, s)".toList)) = [] := by decide +kernel
  unfold predictiveExplorer inspectSource
  change (do
    let m ← parse asciiWord blankChar (fun _ => .ok twoSlots) ["mu".toList, "s".toList] .pymc
      (stripComments "pm.Normal(\"#1\", mu, s)".toList)
    let boxes ← textBoxes some m (pymcModel []).params
    return (boxes, Library.pymc)) = _
  unfold parse
  rw [h]
  rfl

/-- C108: the negation of the documentation of `engine`: a model written with PyMC is not drawn with the engine asked
for. -/
theorem engine_not_used : ∃ (f : FModel ℝ) (boxes : List (List Char × TextBox)),
    predictiveExplorer asciiWord blankChar (fun _ => .ok twoSlots) some f (some .preliz) = .ok (boxes, .pymc) := by
  obtain ⟨m, hm, h1, h2⟩ := pymc_read
  obtain ⟨boxes, hb, -⟩ := explorer_opens_if asciiWord blankChar (fun _ => .ok twoSlots) some (pymcModel commentedText)
    (some .preliz) ⟨true, false⟩ rfl m hm (by
      intro p hp
      simp only [pymcModel, List.mem_cons, List.not_mem_nil, or_false] at hp
      rcases hp with rfl | rfl
      · unfold textBox; rw [h1]; exact ⟨_, rfl⟩
      · unfold textBox; rw [h2]; exact ⟨_, rfl⟩)
  exact ⟨_, boxes, hb⟩

end Verif.Props
