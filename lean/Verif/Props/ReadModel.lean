import Verif.Model.ReadModel
import Verif.Props.Explorer

/-!
# C77: how ppa reads a model
-/

set_option linter.unusedSimpArgs false

namespace Verif.Props
open Verif Verif.Extra Verif.Explorer Verif.ReadModel Verif.Spec

/-! ## The variables returned -/

/-- `v, w, …`: the first variable, then each further one with the white space around its comma -/
def listText (v : List Char) (ws : List (List Char × List Char × List Char)) : List Char :=
  v ++ ws.flatMap fun w => w.1 ++ (',' :: (w.2.1 ++ w.2.2))

/-- word characters and white space in lists of variables -/
structure ListChars (word space : Char → Bool) : Prop where
  comma_word : word ',' = false
  comma_space : space ',' = false
  apart : ∀ c, space c = true → word c = false

private theorem takeWhile_stop (p : Char → Bool) (a b : List Char) (ha : ∀ c ∈ a, p c = true)
    (hb : ∀ c, b.head? = some c → p c = false) : (a ++ b).takeWhile p = a ∧ (a ++ b).dropWhile p = b := by
  induction a with
  | nil =>
    cases b with
    | nil => exact ⟨rfl, rfl⟩
    | cons c b => simp [hb c rfl]
  | cons c a ih =>
    have h1 := ha c (by simp)
    obtain ⟨h2, h3⟩ := ih fun d hd => ha d (by simp [hd])
    simp only [List.cons_append, List.takeWhile_cons, List.dropWhile_cons, h1, if_true, h2, h3, and_self]

private theorem name_head (word : Char → Bool) (v : List Char) (hv : IsName word v) (r : List Char) :
    ∃ c, (v ++ r).head? = some c ∧ word c = true := by
  obtain ⟨c, cs, rfl⟩ := List.exists_cons_of_ne_nil hv.1
  exact ⟨c, rfl, hv.2.1 c (by simp)⟩

private theorem more_read (word space : Char → Bool) (hch : ListChars word space)
    (ws : List (List Char × List Char × List Char)) (hws : ∀ w ∈ ws, (∀ c ∈ w.1, space c = true) ∧
      (∀ c ∈ w.2.1, space c = true) ∧ IsName word w.2.2) (rest : List Char)
    (hr : ∀ c, rest.head? = some c → word c = false)
    (hr2 : ∀ c, (rest.dropWhile space).head? = some c → c ≠ ',') :
    more word space ((ws.flatMap fun w => w.1 ++ (',' :: (w.2.1 ++ w.2.2))) ++ rest) =
      ws.flatMap fun w => w.1 ++ (',' :: (w.2.1 ++ w.2.2)) := by
  induction ws with
  | nil =>
    rw [more]
    simp only [List.flatMap_nil, List.nil_append]
    split
    · rename_i r h
      rw [List.flatMap_nil, List.nil_append] at h
      exact absurd rfl (hr2 ',' (by rw [h]; rfl))
    · rfl
  | cons w ws ih =>
    obtain ⟨h1, h2, h3⟩ := hws w (by simp)
    have hrest := ih fun w hw => hws w (by simp [hw])
    rw [List.flatMap_cons, List.append_assoc, List.append_assoc, List.cons_append, List.append_assoc]
    set tl := (ws.flatMap fun w => w.1 ++ (',' :: (w.2.1 ++ w.2.2))) ++ rest with htl
    have hhead : ∀ c, tl.head? = some c → word c = false := by
      intro c hc
      rw [htl] at hc
      cases ws with
      | nil => exact hr c (by simpa using hc)
      | cons x xs =>
        obtain ⟨g1, -, -⟩ := hws x (by simp)
        rw [List.flatMap_cons] at hc
        cases hx : x.1 with
        | nil =>
          rw [hx] at hc
          simp at hc
          rw [← hc]
          exact hch.comma_word
        | cons d ds =>
          rw [hx] at hc
          simp at hc
          rw [← hc]
          exact hch.apart d (g1 d (by rw [hx]; simp))
    obtain ⟨a1, a2⟩ := takeWhile_stop space w.1 (',' :: (w.2.1 ++ (w.2.2 ++ tl))) h1
      (by intro c hc; simp at hc; rw [← hc]; exact hch.comma_space)
    obtain ⟨b1, b2⟩ := takeWhile_stop space w.2.1 (w.2.2 ++ tl) h2 (by
      intro c hc
      obtain ⟨d, hd, hd2⟩ := name_head word w.2.2 h3 tl
      rw [hd] at hc
      simp only [Option.some.injEq] at hc
      subst hc
      by_contra hs
      rw [hch.apart d (by simpa using hs)] at hd2
      simp at hd2)
    obtain ⟨c1, c2⟩ := takeWhile_stop word w.2.2 tl h3.2.1 hhead
    rw [more]
    split
    · rename_i r h
      rw [a2] at h
      simp only [List.cons.injEq, true_and] at h
      subst h
      rw [b2, c1, if_neg h3.1, a1, b1, c2, hrest]
      simp
    · rename_i h
      exact absurd a2 (h _)

private theorem split_list (word space : Char → Bool) (hch : ListChars word space) (v : List Char)
    (hv : IsName word v) (ws : List (List Char × List Char × List Char))
    (hws : ∀ w ∈ ws, (∀ c ∈ w.1, space c = true) ∧ (∀ c ∈ w.2.1, space c = true) ∧ IsName word w.2.2) :
    ∀ l, (∀ c ∈ l, space c = true) →
    (splitChar ',' (l ++ listText v ws)).map (strip space) = v :: ws.map fun w => w.2.2 := by
  have nocomma : ∀ l : List Char, (∀ c ∈ l, space c = true) → ',' ∉ l := by
    intro l hl h
    have := hl _ h
    rw [hch.comma_space] at this
    simp at this
  have nocomma' : ∀ w : List Char, IsName word w → ',' ∉ w := by
    intro w hw h
    have := hw.2.1 _ h
    rw [hch.comma_word] at this
    simp at this
  have strips : ∀ w l r : List Char, IsName word w → (∀ c ∈ l, space c = true) → (∀ c ∈ r, space c = true) →
      strip space (l ++ w ++ r) = w := by
    intro w l r hw hl hr
    rw [strip_iff]
    refine ⟨l, r, rfl, hl, hr, ?_, ?_⟩
    · intro c hc
      by_contra hs
      have h1 := hch.apart c (by simpa using hs)
      rw [hw.2.1 c (List.mem_of_mem_head? hc)] at h1
      simp at h1
    · intro c hc
      by_contra hs
      have h1 := hch.apart c (by simpa using hs)
      rw [hw.2.1 c (List.mem_of_getLast? hc)] at h1
      simp at h1
  induction ws generalizing v with
  | nil =>
    intro l hl
    have h0 : ',' ∉ l ++ v := by
      rw [List.mem_append, not_or]
      exact ⟨nocomma l hl, nocomma' v hv⟩
    have := split_join ',' [l ++ v] (by simp) (by simpa using h0)
    simp only [joinWith] at this
    unfold listText
    simp only [List.flatMap_nil, List.append_nil, List.map_nil]
    rw [this]
    have hs := strips v l [] hv hl (by simp)
    simp only [List.append_nil] at hs
    simp [hs]
  | cons w ws ih =>
    intro l hl
    obtain ⟨h1, h2, h3⟩ := hws w (by simp)
    have hrec := ih w.2.2 h3 (fun w hw => hws w (by simp [hw])) w.2.1 h2
    have htext : l ++ listText v (w :: ws) = (l ++ v ++ w.1) ++ ',' :: (w.2.1 ++ listText w.2.2 ws) := by
      unfold listText
      simp
    rw [htext, split_append ',' _ _ (by
      rw [List.mem_append, List.mem_append, not_or, not_or]
      exact ⟨⟨nocomma l hl, nocomma' v hv⟩, nocomma _ h1⟩), List.map_cons, hrec, strips v l w.1 hv hl h1]
    rfl

/-- no `return` followed by a word begins in the first part of the text -/
def NoReturn (word : Char → Bool) (pre all : List Char) : Prop :=
  ∀ x y, x.length < pre.length → all = x ++ ("return ".toList ++ y) → ∀ c, y.head? = some c → word c = false

/-- C77: the variables after the first `return` are read, in their order. -/
theorem return_read (word space : Char → Bool) (hch : ListChars word space) (pre v : List Char)
    (ws : List (List Char × List Char × List Char)) (rest : List Char) (hv : IsName word v)
    (hws : ∀ w ∈ ws, (∀ c ∈ w.1, space c = true) ∧ (∀ c ∈ w.2.1, space c = true) ∧ IsName word w.2.2)
    (hpre : NoReturn word pre (pre ++ ("return ".toList ++ (listText v ws ++ rest))))
    (hr : ∀ c, rest.head? = some c → word c = false) (hr2 : ∀ c, (rest.dropWhile space).head? = some c → c ≠ ',') :
    returnVariables word space (pre ++ ("return ".toList ++ (listText v ws ++ rest))) =
      some (v :: ws.map fun w => w.2.2) := by
  induction pre with
  | nil =>
    rw [List.nil_append]
    obtain ⟨t, ht⟩ : ∃ t, "return ".toList ++ (listText v ws ++ rest) = 'r' :: t := ⟨_, rfl⟩
    have hdrop : ('r' :: t).drop 7 = listText v ws ++ rest := by
      rw [← ht]; rfl
    have hhead : ∀ c, ((ws.flatMap fun w => w.1 ++ (',' :: (w.2.1 ++ w.2.2))) ++ rest).head? = some c →
        word c = false := by
      intro c hc
      cases ws with
      | nil => exact hr c (by simpa using hc)
      | cons x xs =>
        obtain ⟨g1, -, -⟩ := hws x (by simp)
        rw [List.flatMap_cons] at hc
        cases hx : x.1 with
        | nil =>
          rw [hx] at hc
          simp at hc
          rw [← hc]
          exact hch.comma_word
        | cons d ds =>
          rw [hx] at hc
          simp at hc
          rw [← hc]
          exact hch.apart d (g1 d (by rw [hx]; simp))
    obtain ⟨a1, a2⟩ := takeWhile_stop word v ((ws.flatMap fun w => w.1 ++ (',' :: (w.2.1 ++ w.2.2))) ++ rest) hv.2.1 hhead
    have hlist : listText v ws ++ rest = v ++ ((ws.flatMap fun w => w.1 ++ (',' :: (w.2.1 ++ w.2.2))) ++ rest) := by
      unfold listText; rw [List.append_assoc]
    have hprefix : "return ".toList.isPrefixOf ('r' :: t) = true := by
      rw [← ht, List.isPrefixOf_iff_prefix]
      exact List.prefix_append _ _
    rw [ht, returnVariables, if_pos ⟨hprefix, by rw [hdrop, hlist, a1]; exact hv.1⟩]
    dsimp only
    rw [hdrop, hlist, a1, a2, more_read word space hch ws hws rest hr hr2]
    have := split_list word space hch v hv ws hws [] (by simp)
    rw [List.nil_append] at this
    unfold listText at this
    rw [this]
  | cons c pre ih =>
    have hrec := ih (by
      intro x y hx hxy d hd
      exact hpre (c :: x) y (by simpa using hx) (by rw [List.cons_append, hxy]; rfl) d hd)
    rw [List.cons_append, returnVariables, if_neg, hrec]
    rintro ⟨h1, h2⟩
    rw [List.isPrefixOf_iff_prefix] at h1
    obtain ⟨y, hy⟩ := h1
    have h3 := hpre [] y (by simp) (by rw [List.cons_append, ← hy]; rfl)
    have hdrop : (c :: (pre ++ ("return ".toList ++ (listText v ws ++ rest)))).drop 7 = y := by
      rw [← hy]; rfl
    rw [hdrop] at h2
    apply h2
    cases y with
    | nil => rfl
    | cons d y => simp [h3 d rfl]

/-! ## The priors -/

/-- `var = pz.Name(arguments)`: the text before the line, the two sides of the `=`, the name and the arguments -/
structure Assign where
  before : List Char
  lhs : List Char
  var : List Char
  rhs : List Char
  name : List Char
  args : List Char

def Assign.gap (a : Assign) : List Char := a.before ++ (a.lhs ++ '=' :: a.rhs)

/-- the text of assignments, followed by a tail -/
def assignText : List Assign → List Char → List Char
  | [], tail => tail
  | a :: as, tail => a.gap ++ (a.name ++ '(' :: (a.args ++ ')' :: assignText as tail))

structure Assign.Ok (space : Char → Bool) (a : Assign) : Prop where
  name : a.name ∈ distNames
  args : OneLevel a.args
  quiet : Quiet a.gap
  gap_end : ∀ x, a.gap.getLast? = some x → x.isAlpha = false
  lhs : '\n' ∉ a.lhs ∧ '=' ∉ a.lhs
  rhs : '\n' ∉ a.rhs
  var : Strips space a.lhs a.var

/-- every assignment begins a line; the first one may also begin the text -/
def OwnLines : List Assign → Prop
  | [] => True
  | a :: as => (a.before = [] ∨ a.before.getLast? = some '\n') ∧ ∀ b ∈ as, b.before.getLast? = some '\n'

private def OwnLines' (as : List Assign) : Prop := ∀ a ∈ as, a.before = [] ∨ a.before.getLast? = some '\n'

private theorem OwnLines.weak {as : List Assign} (h : OwnLines as) : OwnLines' as := by
  intro a ha
  cases as with
  | nil => simp at ha
  | cons b bs =>
    rcases List.mem_cons.1 ha with rfl | ha
    · exact h.1
    · exact Or.inr (h.2 a ha)

/-- the line after the text -/
private def lineOf (line g : List Char) : List Char := g.foldl (fun l c => if c = '\n' then [] else l ++ [c]) line

private theorem lineOf_plain (line g : List Char) (h : '\n' ∉ g) : lineOf line g = line ++ g := by
  unfold lineOf
  induction g generalizing line with
  | nil => simp
  | cons c g ih =>
    simp only [List.mem_cons, not_or] at h
    rw [List.foldl_cons, if_neg (Ne.symm h.1), ih _ h.2]
    simp

private theorem lineOf_append (line a b : List Char) : lineOf line (a ++ b) = lineOf (lineOf line a) b := by
  unfold lineOf
  rw [List.foldl_append]

private theorem lineOf_break (line g : List Char) (h : g.getLast? = some '\n') : lineOf line g = [] := by
  obtain ⟨g', rfl⟩ : ∃ g', g = g' ++ ['\n'] := ⟨_, (List.dropLast_append_getLast? '\n' h).symm⟩
  rw [lineOf_append]
  simp [lineOf]

private theorem scan_skip (line : List Char) (c : Char) (l : List Char) (h : nameAt (c :: l) = none) :
    scan line (c :: l) = scan (if c = '\n' then [] else line ++ [c]) l := by
  rw [scan]
  split
  · rename_i h'; rw [h] at h'; simp at h'
  · rfl

private theorem scan_hit (line l n a r : List Char) (h : nameAt l = some (n, a, r)) :
    scan line l = (line ++ l.take (l.length - r.length), n) :: scan [] r := by
  rw [scan]
  split
  · rename_i h'
    rw [h] at h'
    simp only [Option.some.injEq, Prod.mk.injEq] at h'
    obtain ⟨rfl, rfl, rfl⟩ := h'
    rfl
  · rename_i h'; rw [h] at h'; simp at h'

private theorem scan_quiet (line l : List Char) (h : Quiet l) : scan line l = [] := by
  induction l generalizing line with
  | nil =>
    rw [scan]
    split
    · rename_i h'
      rw [nameAt_none [] (by
        intro n hn hp
        exact names_ne n hn (List.prefix_nil.1 hp))] at h'
      simp at h'
    · rfl
  | cons c l ih =>
    rw [scan_skip _ c l (nameAt_none _ fun n hn hp => h n hn hp.isInfix)]
    exact ih _ fun n hn hi => h n hn (hi.trans (List.infix_cons (List.infix_refl _)))

private theorem scan_gap (line g l : List Char) (h : Quiet g) (he : ∀ x, g.getLast? = some x → x.isAlpha = false) :
    scan line (g ++ l) = scan (lineOf line g) l := by
  induction g generalizing line with
  | nil => rfl
  | cons c g ih =>
    rw [List.cons_append, scan_skip, ih]
    · rfl
    · exact fun n hn hi => h n hn (hi.trans (List.infix_cons (List.infix_refl _)))
    · intro x hx
      refine he x ?_
      rw [List.getLast?_cons, hx]; rfl
    · refine nameAt_none _ fun n hn hp => ?_
      rw [← List.cons_append] at hp
      by_cases hl : n.length ≤ (c :: g).length
      · exact h n hn (List.prefix_of_prefix_length_le hp (List.prefix_append _ _) hl).isInfix
      · have h2 : c :: g <+: n :=
          List.prefix_of_prefix_length_le (List.prefix_append _ _) hp (by omega)
        have hx := he _ (List.getLast?_eq_some_getLast (l := c :: g) (by simp))
        have := names_alpha n hn _ (h2.subset (List.getLast_mem (l := c :: g) (by simp)))
        rw [this] at hx
        simp at hx

private theorem scan_assign (space : Char → Bool) (as : List Assign) (has : ∀ a ∈ as, a.Ok space) (hl : OwnLines' as)
    (tail : List Char) (ht : Quiet tail) :
    ∃ ws : Assign → List Char, scan [] (assignText as tail) =
      as.map fun a => (a.lhs ++ '=' :: ws a, found a.name) := by
  refine ⟨fun a => a.rhs ++ (a.name ++ '(' :: (a.args ++ [')'])), ?_⟩
  induction as with
  | nil => exact scan_quiet [] tail ht
  | cons a as ih =>
    have ha := has a (by simp)
    have hline : lineOf [] a.gap = a.lhs ++ '=' :: a.rhs := by
      unfold Assign.gap
      rw [lineOf_append]
      have h0 : lineOf [] a.before = [] := by
        rcases hl a (by simp) with h | h
        · rw [h]; rfl
        · exact lineOf_break _ _ h
      rw [h0, lineOf_plain]
      · simp
      · simp only [List.mem_append, List.mem_cons, not_or]
        exact ⟨ha.lhs.1, by decide, ha.rhs⟩
    have hrest := ih (fun a h => has a (by simp [h])) fun a h => hl a (by simp [h])
    rw [assignText, scan_gap _ _ _ ha.quiet ha.gap_end, hline,
      scan_hit _ _ _ _ _ (nameAt_call _ _ _ ha.name ha.args), hrest, List.map_cons]
    congr 2
    have hsplit : a.name ++ '(' :: (a.args ++ ')' :: assignText as tail) =
        (a.name ++ '(' :: (a.args ++ [')'])) ++ assignText as tail := by simp
    rw [hsplit]
    have : ((a.name ++ '(' :: (a.args ++ [')'])) ++ assignText as tail).length - (assignText as tail).length =
        (a.name ++ '(' :: (a.args ++ [')'])).length := by
      rw [List.length_append]; omega
    rw [this, List.take_left]
    simp

variable {D : Type}

/-- the distribution last assigned to the variable, when names are read through `f` -/
private def LastRead (f : List Char → List Char) (dist : List Char → Except Err D) (as : List Assign) (v : List Char)
    (d : D) : Prop :=
  ∃ pre a post, as = pre ++ a :: post ∧ a.var = v ∧ (∀ b ∈ post, b.var ≠ v) ∧ dist (f a.name) = .ok d

/-- the distribution last assigned to the variable -/
def LastAssigned (dist : List Char → Except Err D) (as : List Assign) (v : List Char) (d : D) : Prop :=
  ∃ pre a post, as = pre ++ a :: post ∧ a.var = v ∧ (∀ b ∈ post, b.var ≠ v) ∧ dist a.name = .ok d

private theorem dict_read (space : Char → Bool) (dist : List Char → Except Err D) (obs : List Char)
    (f : List Char → List Char) (ws : Assign → List Char) (as : List Assign) (has : ∀ a ∈ as, a.Ok space)
    (hd : ∀ a ∈ as, a.var ≠ obs → ∃ d, dist (f a.name) = .ok d) (m : List Char → Option D) :
    ∃ m', dictModel space dist obs (as.map fun a => (a.lhs ++ '=' :: ws a, f a.name)) m = .ok m' ∧
      m' obs = m obs ∧ (∀ v ≠ obs, (∀ a ∈ as, a.var ≠ v) → m' v = m v) ∧
      ∀ v ≠ obs, (∃ a ∈ as, a.var = v) → ∀ d, m' v = some d ↔ LastRead f dist as v d := by
  induction as generalizing m with
  | nil => exact ⟨m, rfl, rfl, fun _ _ _ => rfl, by simp⟩
  | cons a as ih =>
    have ha := has a (by simp)
    have hvar : strip space ((splitChar '=' (a.lhs ++ '=' :: ws a)).headD []) = a.var := by
      rw [split_append '=' _ _ ha.lhs.2, List.headD_cons, strip_iff]
      exact ha.var
    have hlast : ∀ v, (∃ b ∈ as, b.var = v) → ∀ d, LastRead f dist (a :: as) v d ↔ LastRead f dist as v d := by
      intro v hv d
      constructor
      · rintro ⟨pre, b, post, h1, h2, h3, h4⟩
        cases pre with
        | nil =>
          simp only [List.nil_append, List.cons.injEq] at h1
          obtain ⟨-, rfl⟩ := h1
          obtain ⟨c, hc, hc2⟩ := hv
          exact absurd hc2 (h3 c hc)
        | cons c pre =>
          simp only [List.cons_append, List.cons.injEq] at h1
          exact ⟨pre, b, post, h1.2, h2, h3, h4⟩
      · rintro ⟨pre, b, post, h1, h2, h3, h4⟩
        exact ⟨a :: pre, b, post, by rw [h1]; rfl, h2, h3, h4⟩
    rw [List.map_cons, dictModel, hvar]
    by_cases ho : a.var = obs
    · rw [if_neg (by simpa using ho)]
      obtain ⟨m', h1, h2, h3, h4⟩ := ih (fun a h => has a (by simp [h])) (fun a h => hd a (by simp [h])) m
      refine ⟨m', h1, h2, fun v hv hn => h3 v hv fun b hb => hn b (by simp [hb]), ?_⟩
      rintro v hv ⟨b, hb, hbv⟩ d
      have hex : ∃ b ∈ as, b.var = v := by
        rcases List.mem_cons.1 hb with rfl | hb
        · exact absurd (hbv.symm.trans ho) hv
        · exact ⟨b, hb, hbv⟩
      rw [h4 v hv hex, hlast v hex]
    · obtain ⟨d0, hd0⟩ := hd a (by simp) ho
      rw [if_pos ho, hd0, Except.ok_bind']
      obtain ⟨m', h1, h2, h3, h4⟩ := ih (fun a h => has a (by simp [h])) (fun a h => hd a (by simp [h]))
        (Function.update m a.var (some d0))
      refine ⟨m', h1, ?_, ?_, ?_⟩
      · rw [h2, Function.update_of_ne (Ne.symm ho)]
      · intro v hv hn
        rw [h3 v hv fun b hb => hn b (by simp [hb]), Function.update_of_ne (Ne.symm (hn a (by simp)))]
      · rintro v hv ⟨b, hb, hbv⟩ d
        by_cases hex : ∃ b ∈ as, b.var = v
        · rw [h4 v hv hex, hlast v hex]
        · push Not at hex
          have hav : a.var = v := by
            rcases List.mem_cons.1 hb with rfl | hb
            · exact hbv
            · exact absurd hbv (hex b hb)
          rw [h3 v hv hex, ← hav, Function.update_self]
          constructor
          · intro h
            simp only [Option.some.injEq] at h
            subst h
            exact ⟨[], a, as, rfl, rfl, by rw [hav]; exact hex, hd0⟩
          · rintro ⟨pre, c, post, g1, g2, g3, g4⟩
            cases pre with
            | nil =>
              simp only [List.nil_append, List.cons.injEq] at g1
              rw [← g1.1, hd0] at g4
              simpa using g4
            | cons e pre =>
              simp only [List.cons_append, List.cons.injEq] at g1
              exact absurd (g2.trans hav) (hex c (by rw [g1.2]; simp))

private theorem assign_append (as : List Assign) (a b : List Char) :
    assignText as (a ++ b) = assignText as a ++ b := by
  induction as with
  | nil => rfl
  | cons x as ih => rw [assignText, assignText, ih]; simp

/-- a model for ppa: without its comments it is assignments, one to a line, then `return` with the variables, the observed
one last; and the first `return` followed by a word, also in comments, is the statement -/
structure PpaSource (word space : Char → Bool) (as : List Assign) (t v : List Char)
    (ws : List (List Char × List Char × List Char)) (rest src : List Char) : Prop where
  assigns : ∀ a ∈ as, a.Ok space
  lines : OwnLines as
  var : IsName word v
  vars : ∀ w ∈ ws, (∀ c ∈ w.1, space c = true) ∧ (∀ c ∈ w.2.1, space c = true) ∧ IsName word w.2.2
  tail : Quiet (t ++ ("return ".toList ++ (listText v ws ++ rest)))
  code : withoutComments src = assignText as (t ++ ("return ".toList ++ (listText v ws ++ rest)))
  first : ∃ pre rest', src = pre ++ ("return ".toList ++ (listText v ws ++ rest')) ∧ NoReturn word pre src ∧
    (∀ c, rest'.head? = some c → word c = false) ∧ ∀ c, (rest'.dropWhile space).head? = some c → c ≠ ','

/-- the variables of the model -/
def returned (v : List Char) (ws : List (List Char × List Char × List Char)) : List (List Char) :=
  v :: ws.map fun w => w.2.2

private theorem read_all (word space : Char → Bool) (hch : ListChars word space) (dist : List Char → Except Err D)
    (as : List Assign) (t v : List Char) (ws : List (List Char × List Char × List Char)) (rest src : List Char)
    (h : PpaSource word space as t v ws rest src) (obs : List Char) (hobs : (returned v ws).getLast? = some obs)
    (hd : ∀ a ∈ as, a.var ≠ obs → ∃ d, dist (found a.name) = .ok d) :
    ∃ m, fromPreliz word space dist src =
        .ok (returned v ws, m) ∧ m obs = none ∧
      (∀ x ≠ obs, (∀ a ∈ as, a.var ≠ x) → m x = none) ∧
      ∀ x ≠ obs, (∃ a ∈ as, a.var = x) → ∀ d, m x = some d ↔ LastRead found dist as x d := by
  have hret : returnVariables word space src = some (returned v ws) := by
    obtain ⟨pre, rest', e, hn, h1, h2⟩ := h.first
    rw [e] at hn ⊢
    exact return_read word space hch _ v ws rest' h.var h.vars hn h1 h2
  obtain ⟨wh, hwh⟩ := scan_assign space as h.assigns h.lines.weak _ h.tail
  obtain ⟨m, h1, h2, h3, h4⟩ := dict_read space dist obs found wh as h.assigns hd fun _ => none
  refine ⟨m, ?_, h2, h3, h4⟩
  unfold fromPreliz
  rw [hret]
  dsimp only
  rw [stripComments_lines, h.code, hwh, hobs, Option.getD_some, h1]
  rfl

/-- C77: the model that ppa works with has the returned variables in their order and, for every variable other than the
observed one, exactly the distribution last assigned to it.

Partial: models with a BetaScaled or a BetaBinomial are excluded, see `beta_model_fails`. -/
theorem model_read_partial (word space : Char → Bool) (hch : ListChars word space) (dist : List Char → Except Err D)
    (as : List Assign) (t v : List Char) (ws : List (List Char × List Char × List Char)) (rest src : List Char)
    (h : PpaSource word space as t v ws rest src) (obs : List Char) (hobs : (returned v ws).getLast? = some obs)
    (hb : ∀ a ∈ as, a.name ≠ "BetaScaled".toList ∧ a.name ≠ "BetaBinomial".toList)
    (hd : ∀ a ∈ as, a.var ≠ obs → ∃ d, dist a.name = .ok d) :
    ∃ m, fromPreliz word space dist src =
        .ok (returned v ws, m) ∧ m obs = none ∧
      ∀ x ≠ obs, ∀ d, m x = some d ↔ LastAssigned dist as x d := by
  have hf : ∀ a ∈ as, found a.name = a.name := fun a ha =>
    found_name _ (h.assigns a ha).name (hb a ha).1 (hb a ha).2
  obtain ⟨m, h1, h2, h3, h4⟩ := read_all word space hch dist as t v ws rest src h obs hobs (by
    intro a ha ho
    rw [hf a ha]
    exact hd a ha ho)
  refine ⟨m, h1, h2, fun x hx d => ?_⟩
  by_cases hex : ∃ a ∈ as, a.var = x
  · rw [h4 x hx hex d]
    constructor
    · rintro ⟨pre, a, post, g1, g2, g3, g4⟩
      exact ⟨pre, a, post, g1, g2, g3, by rw [hf a (by rw [g1]; simp)] at g4; exact g4⟩
    · rintro ⟨pre, a, post, g1, g2, g3, g4⟩
      exact ⟨pre, a, post, g1, g2, g3, by rw [hf a (by rw [g1]; simp)]; exact g4⟩
  · push Not at hex
    rw [h3 x hx hex]
    constructor
    · simp
    · rintro ⟨pre, a, post, g1, g2, -, -⟩
      exact absurd g2 (hex a (by rw [g1]; simp))

/-- C77: a prior that is a BetaScaled or a BetaBinomial becomes a Beta. -/
theorem beta_model_fails (word space : Char → Bool) (hch : ListChars word space) (dist : List Char → Except Err D)
    (a : Assign) (t v : List Char) (ws : List (List Char × List Char × List Char)) (rest src : List Char)
    (h : PpaSource word space [a] t v ws rest src) (obs : List Char) (hobs : (returned v ws).getLast? = some obs)
    (ha : a.var ≠ obs) (hb : a.name = "BetaScaled".toList ∨ a.name = "BetaBinomial".toList) (d : D)
    (hd : dist "Beta".toList = .ok d) :
    ∃ m, fromPreliz word space dist src =
        .ok (returned v ws, m) ∧ m a.var = some d := by
  have hf : found a.name = "Beta".toList := by
    rcases hb with hb | hb
    · rw [hb]; exact found_beta.1
    · rw [hb]; exact found_beta.2
  obtain ⟨m, h1, -, -, h4⟩ := read_all word space hch dist [a] t v ws rest src h obs hobs (by
    intro b hb _
    rw [List.mem_singleton] at hb
    subst hb
    exact ⟨d, by rw [hf]; exact hd⟩)
  refine ⟨m, h1, (h4 a.var ha ⟨a, by simp, rfl⟩ d).2 ⟨[], a, [], rfl, rfl, by simp, ?_⟩⟩
  rw [hf]
  exact hd

/-- C77: two assignments on one line: the second prior is stored under the text since the previous call. -/
theorem same_line_fails (word space : Char → Bool) (dist : List Char → Except Err D) (a b : Assign)
    (ha : a.Ok space) (hb : b.Ok space) (hl : a.before = []) (tail : List Char) (ht : Quiet tail)
    (hline : '\n' ∉ b.before ∧ '=' ∉ b.before) (w : List Char) (hw : Strips space (b.before ++ b.lhs) w)
    (hab : a.var ≠ b.var) (hwb : w ≠ b.var) (vars : List (List Char)) (obs : List Char)
    (hobs : vars.getLast? = some obs) (hwo : w ≠ obs)
    (hret : returnVariables word space (assignText [a, b] tail) = some vars) (hcom : '#' ∉ assignText [a, b] tail)
    (hn : a.name ≠ "BetaScaled".toList ∧ a.name ≠ "BetaBinomial".toList ∧ b.name ≠ "BetaScaled".toList ∧
      b.name ≠ "BetaBinomial".toList)
    (da db : D) (hda : dist a.name = .ok da) (hdb : dist b.name = .ok db) :
    ∃ m, fromPreliz word space dist (assignText [a, b] tail) = .ok (vars, m) ∧ m w = some db ∧ m b.var = none := by
  set b' : Assign := ⟨[], b.before ++ b.lhs, w, b.rhs, b.name, b.args⟩ with hb'
  have hgap : b'.gap = b.gap := by simp [hb', Assign.gap]
  have hok : b'.Ok space := by
    refine ⟨hb.name, hb.args, by rw [hgap]; exact hb.quiet, by rw [hgap]; exact hb.gap_end, ?_, hb.rhs, hw⟩
    simp only [hb', List.mem_append, not_or]
    exact ⟨⟨hline.1, hb.lhs.1⟩, hline.2, hb.lhs.2⟩
  have htext : assignText [a, b] tail = assignText [a, b'] tail := by
    simp only [assignText, hgap]
    rfl
  have hoks : ∀ x ∈ [a, b'], x.Ok space := by
    intro x hx
    simp only [List.mem_cons, List.not_mem_nil, or_false] at hx
    rcases hx with rfl | rfl
    · exact ha
    · exact hok
  have fa := found_name _ ha.name hn.1 hn.2.1
  have fb : found b'.name = b.name := found_name _ hb.name hn.2.2.1 hn.2.2.2
  obtain ⟨wh, hwh⟩ := scan_assign space [a, b'] hoks (by
    intro x hx
    simp only [List.mem_cons, List.not_mem_nil, or_false] at hx
    rcases hx with rfl | rfl
    · exact Or.inl hl
    · exact Or.inl rfl) tail ht
  obtain ⟨m, h1, h2, h3, h4⟩ := dict_read space dist obs found wh [a, b'] hoks (by
    intro x hx _
    simp only [List.mem_cons, List.not_mem_nil, or_false] at hx
    rcases hx with rfl | rfl
    · exact ⟨da, by rw [fa]; exact hda⟩
    · exact ⟨db, by rw [fb]; exact hdb⟩) fun _ => none
  refine ⟨m, ?_, ?_, ?_⟩
  · unfold fromPreliz
    rw [hret]
    dsimp only
    rw [stripComments_none _ hcom, htext, hwh, hobs, Option.getD_some, h1]
    rfl
  · refine (h4 w hwo ⟨b', by simp, rfl⟩ db).2 ⟨[a], b', [], rfl, rfl, by simp, ?_⟩
    rw [fb]
    exact hdb
  · by_cases ho : b.var = obs
    · rw [ho, h2]
    · rw [h3 b.var ho]
      intro x hx
      simp only [List.mem_cons, List.not_mem_nil, or_false] at hx
      rcases hx with rfl | rfl
      · exact hab
      · exact hwb

/-- C77: without `return` followed by a word, as in `return (a, b)`, the model is not read. -/
theorem no_return_fails (word space : Char → Bool) (dist : List Char → Except Err D) (src : List Char)
    (h : NoReturn word src src) : fromPreliz word space dist src = .error .attributeError := by
  have key : ∀ l x : List Char, src = x ++ l → returnVariables word space l = none := by
    intro l
    induction l with
    | nil => intros; rfl
    | cons c l ih =>
      intro x hx
      rw [returnVariables, if_neg, ih (x ++ [c]) (by rw [hx]; simp)]
      rintro ⟨h1, h2⟩
      rw [List.isPrefixOf_iff_prefix] at h1
      obtain ⟨y, hy⟩ := h1
      have h3 := h x y (by rw [hx]; simp) (by rw [hy]; exact hx)
      have hdrop : (c :: l).drop 7 = y := by rw [← hy]; rfl
      rw [hdrop] at h2
      apply h2
      cases y with
      | nil => rfl
      | cons d y => simp [h3 d rfl]
  unfold fromPreliz
  rw [key src [] rfl]

/-- a text in which no `return ` begins in the first part -/
theorem noReturn_of (word : Char → Bool) (pre all : List Char)
    (h : ¬ "return ".toList <:+: all.take (pre.length + 6)) : NoReturn word pre all := by
  intro x y hx hxy c hc
  refine absurd ?_ h
  refine ⟨x, y.take (pre.length + 6 - (x.length + 7)), ?_⟩
  rw [hxy, ← List.append_assoc x, List.take_append]
  have : (x ++ "return ".toList).length = x.length + 7 := by simp
  rw [this, List.take_of_length_le (l := x ++ "return ".toList) (by rw [this]; omega)]

/-! ## Examples -/

private theorem listAscii : ListChars asciiWord blankChar := by
  refine ⟨by decide, by decide, ?_⟩
  intro c hc
  simp only [blankChar, Bool.or_eq_true, decide_eq_true_eq] at hc
  rcases hc with (rfl | rfl) | rfl <;> decide

/-- two priors and an observed variable -/
def exampleAssigns : List Assign :=
  [⟨"def f():\n".toList, "    a ".toList, "a".toList, " pz.".toList, "Normal".toList, "0, 1".toList⟩,
   ⟨".rvs()\n".toList, "    b ".toList, "b".toList, " pz.".toList, "Gamma".toList, "2, pz.exp(1)".toList⟩,
   ⟨".rvs()\n".toList, "    y ".toList, "y".toList, " pz.".toList, "Poisson".toList, "b".toList⟩]

/-- `a, b, y` -/
def exampleMore : List (List Char × List Char × List Char) := [([], " ".toList, "b".toList), ([], " ".toList, "y".toList)]

example : assignText exampleAssigns (".rvs(100)\n    ".toList ++ ("return ".toList ++
    (listText "a".toList exampleMore ++ "\n".toList))) =
    ("def f():\n    a = pz.Normal(0, 1).rvs()\n    b = pz.Gamma(2, pz.exp(1)).rvs()\n" ++
      "    y = pz.Poisson(b).rvs(100)\n    return a, b, y\n").toList := by decide +kernel

private theorem strips_pad (v : Char) (hv : blankChar v = false) (n : List Char) (hn : n = "    ".toList ++ [v] ++ " ".toList) :
    Strips blankChar n [v] :=
  ⟨"    ".toList, " ".toList, hn, by decide, by decide, by simpa using hv, by simpa using hv⟩

private theorem level_group : OneLevel "2, pz.exp(1)".toList := by
  have h : OneLevel ("(1)".toList) := .group (g := "1".toList) (by decide) (by decide) .nil
  exact .char (by decide) (by decide) (.char (by decide) (by decide) (.char (by decide) (by decide) (.char (by decide)
    (by decide) (.char (by decide) (by decide) (.char (by decide) (by decide) (.char (by decide) (by decide)
    (.char (by decide) (by decide) (.char (by decide) (by decide) h))))))))

private theorem example_ok : ∀ a ∈ exampleAssigns, a.Ok blankChar := by
  intro a ha
  simp only [exampleAssigns, List.mem_cons, List.not_mem_nil, or_false] at ha
  rcases ha with rfl | rfl | rfl
  · exact ⟨by decide +kernel, oneLevel_flat _ (by decide) (by decide), by unfold Quiet; decide +kernel, by
      intro x hx
      have : some '.' = some x := hx
      simp only [Option.some.injEq] at this
      subst this
      decide, by decide, by decide, strips_pad 'a' (by decide) _ rfl⟩
  · exact ⟨by decide +kernel, level_group, by unfold Quiet; decide +kernel, by
      intro x hx
      have : some '.' = some x := hx
      simp only [Option.some.injEq] at this
      subst this
      decide, by decide, by decide, strips_pad 'b' (by decide) _ rfl⟩
  · exact ⟨by decide +kernel, oneLevel_flat _ (by decide) (by decide), by unfold Quiet; decide +kernel, by
      intro x hx
      have : some '.' = some x := hx
      simp only [Option.some.injEq] at this
      subst this
      decide, by decide, by decide, strips_pad 'y' (by decide) _ rfl⟩

private theorem example_vars : ∀ w ∈ exampleMore, (∀ c ∈ w.1, blankChar c = true) ∧ (∀ c ∈ w.2.1, blankChar c = true) ∧
    IsName asciiWord w.2.2 := by
  intro w hw
  simp only [exampleMore, List.mem_cons, List.not_mem_nil, or_false] at hw
  rcases hw with rfl | rfl
  · exact ⟨by simp, by decide, by decide, by decide, by simp⟩
  · exact ⟨by simp, by decide, by decide, by decide, by simp⟩

/-- the same source with comments -/
def exampleCommented : List Char :=
  ("def f():# two priors, not Beta(1, 1)\n    a = pz.Normal(0, 1).rvs()# location\n    b = pz.Gamma(2, pz.exp(1)).rvs()\n" ++
    "    y = pz.Poisson(b).rvs(100)# (observed)\n    return a, b, y# all\n").toList

private theorem example_source (src : List Char)
    (hcode : withoutComments src = assignText exampleAssigns (".rvs(100)\n    ".toList ++ ("return ".toList ++
        (listText "a".toList exampleMore ++ "\n".toList))))
    (hfirst : ∃ pre rest', src = pre ++ ("return ".toList ++ (listText "a".toList exampleMore ++ rest')) ∧
      NoReturn asciiWord pre src ∧ (∀ c, rest'.head? = some c → asciiWord c = false) ∧
      ∀ c, (rest'.dropWhile blankChar).head? = some c → c ≠ ',') :
    PpaSource asciiWord blankChar exampleAssigns ".rvs(100)\n    ".toList "a".toList exampleMore "\n".toList src where
  assigns := example_ok
  lines := by
    refine ⟨Or.inr rfl, ?_⟩
    intro b hb
    simp only [List.mem_cons, List.not_mem_nil, or_false] at hb
    rcases hb with rfl | rfl <;> rfl
  var := ⟨by decide, by decide, by simp⟩
  vars := example_vars
  tail := by unfold Quiet; decide +kernel
  code := hcode
  first := hfirst

private theorem example_plain : PpaSource asciiWord blankChar exampleAssigns ".rvs(100)\n    ".toList "a".toList exampleMore
    "\n".toList (assignText exampleAssigns (".rvs(100)\n    ".toList ++ ("return ".toList ++
        (listText "a".toList exampleMore ++ "\n".toList)))) :=
  example_source _ (plain_source _ (by decide +kernel)) ⟨assignText exampleAssigns ".rvs(100)\n    ".toList, "\n".toList,
    assign_append _ _ _, noReturn_of _ _ _ (by decide +kernel), by simp; decide, by decide⟩

private theorem example_commented : PpaSource asciiWord blankChar exampleAssigns ".rvs(100)\n    ".toList "a".toList
    exampleMore "\n".toList exampleCommented :=
  example_source _ (by decide +kernel) ⟨("def f():# two priors, not Beta(1, 1)\n    a = pz.Normal(0, 1).rvs()# location\n" ++
    "    b = pz.Gamma(2, pz.exp(1)).rvs()\n    y = pz.Poisson(b).rvs(100)# (observed)\n    ").toList, "# all\n".toList,
    by decide +kernel, noReturn_of _ _ _ (by decide +kernel), by decide, by decide⟩

/-- a model of two priors is read, with and without comments: both of them, and not the observed variable -/
example (dist : List Char → Except Err D) (dn dg : D) (hn : dist "Normal".toList = .ok dn)
    (hg : dist "Gamma".toList = .ok dg) (src : List Char)
    (hsrc : src = exampleCommented ∨ src = assignText exampleAssigns (".rvs(100)\n    ".toList ++
        ("return ".toList ++ (listText "a".toList exampleMore ++ "\n".toList)))) :
    ∃ m, fromPreliz asciiWord blankChar dist src = .ok (["a".toList, "b".toList, "y".toList], m) ∧
      m "a".toList = some dn ∧ m "b".toList = some dg ∧ m "y".toList = none := by
  have hs : PpaSource asciiWord blankChar exampleAssigns ".rvs(100)\n    ".toList "a".toList exampleMore "\n".toList src := by
    rcases hsrc with h | h <;> rw [h]
    · exact example_commented
    · exact example_plain
  obtain ⟨m, h1, h2, h3⟩ := model_read_partial asciiWord blankChar listAscii dist exampleAssigns _ _ _ _ src hs
    "y".toList rfl (by decide +kernel) (by
      intro a ha ho
      simp only [exampleAssigns, List.mem_cons, List.not_mem_nil, or_false] at ha
      rcases ha with rfl | rfl | rfl
      · exact ⟨dn, hn⟩
      · exact ⟨dg, hg⟩
      · exact absurd rfl ho)
  refine ⟨m, h1, (h3 _ (by decide) dn).2 ⟨[], _, _, rfl, rfl, by decide, hn⟩,
    (h3 _ (by decide) dg).2 ⟨[_], _, _, rfl, rfl, by decide, hg⟩, h2⟩

private def betaAssign : Assign :=
  ⟨"def f():\n".toList, "    a ".toList, "a".toList, " pz.".toList, "BetaScaled".toList, "2, 3, 0, 10".toList⟩

/-- a BetaScaled prior is fitted as a Beta -/
example (dist : List Char → Except Err D) (d : D) (hd : dist "Beta".toList = .ok d) :
    ∃ m, fromPreliz asciiWord blankChar dist (assignText [betaAssign] (".rvs()\n    y = pz.g(a)\n    ".toList ++
        ("return ".toList ++ (listText "a".toList [([], " ".toList, "y".toList)] ++ "\n".toList)))) =
        .ok (["a".toList, "y".toList], m) ∧ m "a".toList = some d := by
  refine beta_model_fails asciiWord blankChar listAscii dist betaAssign ".rvs()\n    y = pz.g(a)\n    ".toList "a".toList
    [([], " ".toList, "y".toList)] "\n".toList _ ?_ "y".toList rfl (by decide) (Or.inl rfl) d hd
  refine ⟨?_, ⟨Or.inr rfl, by simp⟩, ⟨by decide, by decide, by simp⟩, ?_, by unfold Quiet; decide +kernel,
    plain_source _ (by decide +kernel), assignText [betaAssign] ".rvs()\n    y = pz.g(a)\n    ".toList, "\n".toList,
    assign_append _ _ _, noReturn_of _ _ _ (by decide +kernel), by simp; decide, by decide⟩
  · intro a ha
    rw [List.mem_singleton] at ha
    subst ha
    exact ⟨by decide +kernel, oneLevel_flat _ (by decide) (by decide), by unfold Quiet; decide +kernel, by
      intro x hx
      have : some '.' = some x := hx
      simp only [Option.some.injEq] at this
      subst this
      decide, by decide, by decide, strips_pad 'a' (by decide) _ rfl⟩
  · intro w hw
    rw [List.mem_singleton] at hw
    subst hw
    exact ⟨by simp, by decide, by decide, by decide, by simp⟩

/-- C77: a `return` in a docstring or a comment is taken for the statement: here the model returns `a` and `y`, and the
variable read is `samples`. -/
theorem docstring_return_fails : returnVariables asciiWord blankChar
    "def f():\n    # return samples\n    a = pz.Normal(0, 1).rvs()\n    y = pz.g(a)\n    return a, y\n".toList =
      some ["samples".toList] := by
  have := return_read asciiWord blankChar listAscii "def f():\n    # ".toList "samples".toList []
    "\n    a = pz.Normal(0, 1).rvs()\n    y = pz.g(a)\n    return a, y\n".toList ⟨by decide, by decide, by simp⟩
    (by simp) (noReturn_of _ _ _ (by decide +kernel)) (by simp; decide) (by decide +kernel)
  rw [List.map_nil] at this
  rw [← this]
  congr 1

private def oneLine : Assign :=
  ⟨[], "a ".toList, "a".toList, " pz.".toList, "Normal".toList, "0, 1".toList⟩

private def sameLine : Assign :=
  ⟨".rvs(); ".toList, "b ".toList, "b".toList, " pz.".toList, "Gamma".toList, "1, 2".toList⟩

/-- `a = pz.Normal(0, 1).rvs(); b = pz.Gamma(1, 2).rvs()` -/
example (dist : List Char → Except Err D) (dn dg : D) (hn : dist "Normal".toList = .ok dn)
    (hg : dist "Gamma".toList = .ok dg) :
    ∃ m, fromPreliz asciiWord blankChar dist (assignText [oneLine, sameLine]
        ".rvs()\ny = pz.g(a, b)\nreturn a, b, y\n".toList) = .ok (["a".toList, "b".toList, "y".toList], m) ∧
      m ".rvs(); b".toList = some dg ∧ m "b".toList = none := by
  have hq : ∀ a ∈ [oneLine, sameLine], a.Ok blankChar := by
    intro a ha
    simp only [List.mem_cons, List.not_mem_nil, or_false] at ha
    rcases ha with rfl | rfl
    · exact ⟨by decide +kernel, oneLevel_flat _ (by decide) (by decide), by unfold Quiet; decide +kernel, by
        intro x hx
        have : some '.' = some x := hx
        simp only [Option.some.injEq] at this
        subst this
        decide, by decide, by decide, ⟨[], " ".toList, rfl, by simp, by decide, by decide, by decide⟩⟩
    · exact ⟨by decide +kernel, oneLevel_flat _ (by decide) (by decide), by unfold Quiet; decide +kernel, by
        intro x hx
        have : some '.' = some x := hx
        simp only [Option.some.injEq] at this
        subst this
        decide, by decide, by decide, ⟨[], " ".toList, rfl, by simp, by decide, by decide, by decide⟩⟩
  refine same_line_fails asciiWord blankChar dist oneLine sameLine (hq _ (by simp)) (hq _ (by simp)) rfl _
    (by unfold Quiet; decide +kernel) (by decide) ".rvs(); b".toList
    ⟨[], " ".toList, rfl, by simp, by decide, by decide, by decide⟩ (by decide) (by decide) _ "y".toList rfl (by decide)
    ?_ (by decide +kernel) (by decide) dn dg hn hg
  have := return_read asciiWord blankChar listAscii
    "a = pz.Normal(0, 1).rvs(); b = pz.Gamma(1, 2).rvs()\ny = pz.g(a, b)\n".toList "a".toList exampleMore "\n".toList
    ⟨by decide, by decide, by simp⟩ example_vars (noReturn_of _ _ _ (by decide +kernel)) (by simp; decide) (by decide)
  exact this

/-- `return (a, y)` -/
example (dist : List Char → Except Err D) : fromPreliz asciiWord blankChar dist
    "a = pz.Normal(0, 1).rvs()\nreturn (a, y)\n".toList = .error .attributeError := by
  refine no_return_fails _ _ _ _ ?_
  set src := "a = pz.Normal(0, 1).rvs()\nreturn (a, y)\n".toList with hsrc
  have key : ∀ k ∈ List.range src.length, "return ".toList.isPrefixOf (src.drop k) = true →
      ((src.drop k).drop 7).head?.all (fun c => !asciiWord c) = true := by decide +kernel
  intro x y hx hxy c hc
  have h1 : src.drop x.length = "return ".toList ++ y := by rw [hxy, List.drop_left]
  have := key x.length (by simpa using hx) (by
    rw [h1, List.isPrefixOf_iff_prefix]
    exact List.prefix_append _ _)
  rw [h1, List.drop_left' (by rfl), hc] at this
  simpa using this

/-! ## Bambi -/

private theorem head_split (sep : Char) (q s : List Char) (h : sep ∉ q) :
    (splitChar sep (q ++ s)).headD [] = q ++ (splitChar sep s).headD [] := by
  induction q with
  | nil => rfl
  | cons c q ih =>
    simp only [List.mem_cons, not_or] at h
    rw [List.cons_append, splitChar, if_neg (Ne.symm h.1)]
    have := ih h.2
    cases hs : splitChar sep (q ++ s) with
    | nil => rw [hs] at this; simp at this ⊢; exact this
    | cons x xs => rw [hs] at this; simp at this ⊢; exact this

/-- C77: priors of a Bambi model are never returned: as soon as the source has a prior, reading it stops with an
AttributeError, and without one the model is empty and the parameters cannot be put together. -/
theorem bambi_never_returns {P : Type} (space : Char → Bool) (dist : List Char → Except Err D)
    (hdist : ∀ t, (t = [] ∨ '=' ∈ t) → dist t = .error .attributeError) (hsp : space '(' = false)
    (vars : List (List Char)) (hvars : ∀ v ∈ vars, '(' ∉ v) (ms : List PriorMatch)
    (hms : ∀ p ∈ ms, '=' ∉ p.lead ∧ (p.args = [] ∨ '=' ∈ p.args)) :
    (ms ≠ [] → fromBambi space dist vars ms = .error .attributeError) ∧
    ∀ m, fromBambi space dist vars ms = .ok m → ∀ (vs : List (List Char)) (params : D → List P),
      concatenateParams ((vs.filterMap m).map params) = .error .valueError := by
  have h1 : ms ≠ [] → fromBambi space dist vars ms = .error .attributeError := by
    intro hne
    obtain ⟨p, ps, rfl⟩ := List.exists_cons_of_ne_nil hne
    obtain ⟨h1, h4⟩ := hms p (by simp)
    unfold fromBambi
    rw [List.map_cons, dictModel]
    rw [if_pos, hdist _ h4]
    · rfl
    · intro heq
      have hin : '(' ∈ strip space ((splitChar '=' p.whole).headD []) := by
        have key : ∃ s, (splitChar '=' p.whole).headD [] = p.lead ++ ("Prior(".toList ++ s) := by
          refine ⟨(splitChar '=' ('"' :: (p.name ++ ("\",".toList ++ (p.gap ++ (p.args ++ (p.trail ++ [')']))))))).headD [], ?_⟩
          have := head_split '=' (p.lead ++ "Prior(".toList)
            ('"' :: (p.name ++ ("\",".toList ++ (p.gap ++ (p.args ++ (p.trail ++ [')'])))))) (by
              rw [List.mem_append, not_or]
              exact ⟨h1, by decide⟩)
          rw [List.append_assoc, List.append_assoc] at this
          rw [← this]
          rfl
        obtain ⟨s, hs⟩ := key
        rw [hs]
        obtain ⟨l, r, g1, g2, g3, -, -⟩ := (strip_iff space (p.lead ++ ("Prior(".toList ++ s)) _).1 rfl
        have hmem : '(' ∈ p.lead ++ ("Prior(".toList ++ s) := by simp
        rw [g1] at hmem
        simp only [List.mem_append] at hmem
        rcases hmem with (hmem | hmem) | hmem
        · have := g2 _ hmem
          rw [hsp] at this
          simp at this
        · exact hmem
        · have := g3 _ hmem
          rw [hsp] at this
          simp at this
      rw [heq] at hin
      cases hv : vars.getLast? with
      | none => rw [hv] at hin; simp at hin
      | some v =>
        rw [hv] at hin
        exact hvars v (List.mem_of_getLast? hv) hin
  refine ⟨h1, ?_⟩
  intro m hm vs params
  by_cases hne : ms = []
  · subst hne
    unfold fromBambi at hm
    simp only [List.map_nil, dictModel, Except.ok.injEq] at hm
    subst hm
    have : vs.filterMap (fun _ => (none : Option D)) = [] := by
      rw [List.filterMap_eq_nil_iff]; simp
    rw [this]
    rfl
  · rw [h1 hne] at hm
    simp at hm

/-- `bmb.Prior("Normal", mu=m, sigma=s)` -/
example (dist : List Char → Except Err D) (hdist : ∀ t, (t = [] ∨ '=' ∈ t) → dist t = .error .attributeError) :
    fromBambi blankChar dist ["a".toList, "y".toList]
      [⟨" bmb.".toList, "Normal".toList, " ".toList, "mu=m, sigma=s".toList, []⟩] = .error .attributeError :=
  (bambi_never_returns (P := Unit) blankChar dist hdist (by decide) _ (by decide) _ (by decide)).1 (by simp)

end Verif.Props
