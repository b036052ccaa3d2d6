import Verif.Lemmas.Overview
import Verif.Props.Printed

/-!
# C113: the overviews of a distribution and of the catalogue
-/

namespace Verif.Props
open Verif Verif.Spec Verif.Overview

/-- what is shown for one end of a support -/
def EndShows : End → List Char → Prop
  | .real x text, t => (|x| < 1 / 10 ^ 10 ∧ x ≠ 0 → t = ['0']) ∧ (1 / 10 ^ 10 ≤ |x| ∨ x = 0 → t = text)
  | .posInf, t => t = "inf".toList
  | .negInf, t => t = "-inf".toList
  | .nan, t => t = "nan".toList
  | .missing, t => t = "None".toList
  | .array, _ => False

/-- texts without angle brackets -/
def EndClean : End → Prop
  | .real _ text => Clean text
  | _ => True

/-- a label and a value, if there is one -/
def labelled (label : String) : Except Err (List Char) → List (List Char)
  | .ok v => [label.toList, v]
  | .error _ => []

/-- everything the table is made of can be shown -/
structure ViewClean (v : View) : Prop where
  name : Clean v.obj.name
  kind : Clean v.kind
  names : ∀ n ∈ v.obj.names, '<' ∉ n ∧ '>' ∉ n
  lo : EndClean v.lo
  hi : EndClean v.hi
  mean : ∀ m, v.mean = .ok m → Clean m
  std : ∀ m, v.std = .ok m → Clean m
  ways : ∀ l, v.ways = some l → ∀ p ∈ l, ∀ n ∈ p, '<' ∉ n ∧ '>' ∉ n

private theorem formatEnd_spec (e : End) (t : List Char) (h : formatEnd e = .ok t) : EndShows e t := by
  cases e with
  | real x text =>
    simp only [formatEnd] at h
    split_ifs at h with hx
    · simp only [Except.ok.injEq] at h
      refine ⟨fun _ => h.symm, fun h' => ?_⟩
      rcases h' with h' | h'
      · exact absurd hx.2 (not_lt.mpr h')
      · subst h'; simp at hx
    · simp only [Except.ok.injEq] at h
      exact ⟨fun h' => absurd ⟨abs_pos.mpr h'.2, h'.1⟩ hx, fun _ => h.symm⟩
  | array => simp [formatEnd] at h
  | _ => simp only [formatEnd, Except.ok.injEq] at h; exact h.symm

private theorem formatEnd_clean (e : End) (hc : EndClean e) (t : List Char) (h : formatEnd e = .ok t) : Clean t := by
  cases e with
  | real x text =>
    simp only [formatEnd] at h
    split_ifs at h with hx
    · simp only [Except.ok.injEq] at h; subst h; exact ⟨by decide, by decide, by decide⟩
    · simp only [Except.ok.injEq] at h; subst h; exact hc
  | array => simp [formatEnd] at h
  | _ =>
    simp only [formatEnd, Except.ok.injEq] at h
    subst h
    exact ⟨by decide +kernel, by decide +kernel, by decide +kernel⟩

private theorem formatEnd_ok (e : End) : (∃ t, formatEnd e = .ok t) ↔ e ≠ .array := by
  cases e with
  | real x text => simp only [formatEnd]; split_ifs <;> simp
  | _ => simp [formatEnd]

private def waysPairs : Option (List (List (List Char))) → List (List Char × List Char)
  | none => []
  | some [] => []
  | some l => [("Parametrizations".toList, join ", ".toList (l.map fun p => '(' :: join ", ".toList p ++ [')']))]

private def tryPairs (label : List Char) : Except Err (List Char) → List (List Char × List Char)
  | .ok v => [(label, v)]
  | .error _ => []

private theorem html_form (v : View) : html v = (do
    let d ← Printed.description v.obj
    let s ← formatSupport v.lo v.hi
    let ps := [("Kind".toList, v.kind), ("Support".toList, '(' :: s.1 ++ ", ".toList ++ s.2 ++ ")".toList)] ++
      (if v.obj.frozen then tryPairs "Mean".toList v.mean ++ tryPairs "Std".toList v.std else []) ++ waysPairs v.ways
    return "<details><summary>".toList ++ ("<b>".toList ++ v.obj.name ++ "</b>".toList ++
      (if v.obj.frozen then '(' :: d ++ [')'] else [])) ++ "</summary>".toList ++
      "<table style='margin-left:20px;margin-top:5px'>".toList ++ (ps.map fun p => row p.1 p.2).flatten ++
      "</table></details>".toList) := by
  have e1 : ∀ (l : List Char) x, (tryPairs l x).map (fun p => row p.1 p.2) = tryRow l x := by
    intro l x; cases x <;> rfl
  have e2 : ∀ w, (waysPairs w).map (fun p => row p.1 p.2) = wayRows w := by
    intro w
    match w with
    | none => rfl
    | some [] => rfl
    | some (a :: l) => rfl
  unfold html
  cases hf : v.obj.frozen with
  | false =>
    have : Printed.description v.obj = .ok [] := by simp [Printed.description, hf]
    rw [this]
    simp only [Bool.false_eq_true, if_false, bind, Except.bind, pure, Except.pure]
    cases formatSupport v.lo v.hi with
    | error e => rfl
    | ok s => simp [e2]
  | true =>
    simp only [if_true, bind, Except.bind, pure, Except.pure]
    cases Printed.description v.obj with
    | error e => rfl
    | ok d =>
      simp only
      cases formatSupport v.lo v.hi with
      | error e => rfl
      | ok s => simp [e1, e2]

private theorem join_plain {l : List (List Char)} (h : ∀ n ∈ l, Plain n) : Plain (join ", ".toList l) := by
  intro c hc
  rcases join_mem hc with h' | ⟨n, hn, hc⟩
  · exact (show ∀ c ∈ ", ".toList, c ≠ '<' ∧ c ≠ '>' by decide +kernel) c h'
  · exact h n hn c hc

private theorem plain_of {n : List Char} (h : '<' ∉ n ∧ '>' ∉ n) : Plain n :=
  fun c hc => ⟨fun e => h.1 (e ▸ hc), fun e => h.2 (e ▸ hc)⟩

private theorem clean_of {n : List Char} (h0 : n ≠ []) (h : Plain n) : Clean n :=
  ⟨h0, fun hc => (h _ hc).1 rfl, fun hc => (h _ hc).2 rfl⟩

private theorem plain_clean {n : List Char} (h : Clean n) : Plain n := plain_of h.2

private theorem join_eq (l : List (List Char)) : join ", ".toList l = [',', ' '].intercalate l := by
  induction l with
  | nil => rfl
  | cons a l ih =>
    cases l with
    | nil => simp [join, List.intercalate]
    | cons b l =>
      simp only [join, ih]
      simp [List.intercalate]

private theorem texts_try (l : String) (x : Except Err (List Char)) :
    (tryPairs l.toList x).flatMap (fun p => [p.1, p.2]) = labelled l x := by
  cases x <;> simp [tryPairs, labelled]

private theorem texts_ways (w : Option (List (List (List Char)))) :
    (waysPairs w).flatMap (fun p => [p.1, p.2]) = (if w.getD [] = [] then [] else ["Parametrizations".toList,
      [',', ' '].intercalate ((w.getD []).map fun p => '(' :: [',', ' '].intercalate p ++ [')'])]) := by
  match w with
  | none => simp [waysPairs]
  | some [] => simp [waysPairs]
  | some (q :: l) =>
    simp only [waysPairs, List.flatMap_cons, List.flatMap_nil, List.append_nil, Option.getD_some, join_eq]
    simp

private theorem texts_mid (fr : Bool) (x y : Except Err (List Char)) :
    (if fr = true then tryPairs "Mean".toList x ++ tryPairs "Std".toList y else []).flatMap (fun p => [p.1, p.2]) =
      if fr = true then labelled "Mean" x ++ labelled "Std" y else [] := by
  cases fr with
  | false => rfl
  | true => rw [if_pos rfl, if_pos rfl, List.flatMap_append, texts_try, texts_try]

private theorem texts_all (name kind a b d : List Char) (fr : Bool) (m w : List (List Char)) :
    [name] ++ (if (if fr = true then '(' :: d ++ [')'] else []) = [] then []
        else [if fr = true then '(' :: d ++ [')'] else []]) ++
      (List.flatMap (fun p => [p.1, p.2])
        [("Kind".toList, kind), ("Support".toList, '(' :: a ++ ", ".toList ++ b ++ ")".toList)] ++ m ++ w) =
    [name] ++ (if fr = true then ['(' :: d ++ [')']] else []) ++
      ["Kind".toList, kind, "Support".toList, '(' :: a ++ [',', ' '] ++ b ++ [')']] ++ m ++ w := by
  have e : (if (if fr = true then '(' :: d ++ [')'] else []) = [] then []
        else [if fr = true then '(' :: d ++ [')'] else []]) = if fr = true then ['(' :: d ++ [')']] else [] := by
    cases fr with
    | false => rfl
    | true => rfl
  rw [e]
  simp only [List.flatMap_cons, List.flatMap_nil, List.append_assoc, List.cons_append, List.nil_append,
    List.append_nil]
  rfl

/-- C113: the table of a distribution in a notebook is a page whose tags match, and the texts on it are: the printed
form of the distribution, its kind, its support, for a complete distribution the mean and the deviation as far as
they can be computed, and the parametrisations, if the class lists any -/
theorem table_shows (v : View) (hv : ViewClean v) (t : List Char) (h : html v = .ok t) :
    WellFormed t ∧ ∃ r a b head, Printed.repr v.obj = .ok r ∧ EndShows v.lo a ∧ EndShows v.hi b ∧
      head.flatten = r ∧ head.head? = some v.obj.name ∧
      visible t = head ++ ["Kind".toList, v.kind, "Support".toList, '(' :: a ++ [',', ' '] ++ b ++ [')']] ++
        (if v.obj.frozen then labelled "Mean" v.mean ++ labelled "Std" v.std else []) ++
        (if v.ways.getD [] = [] then [] else ["Parametrizations".toList,
          [',', ' '].intercalate ((v.ways.getD []).map fun p => '(' :: [',', ' '].intercalate p ++ [')'])]) := by
  rw [html_form] at h
  cases hd : Printed.description v.obj with
  | error e => rw [hd] at h; simp [bind, Except.bind] at h
  | ok d =>
    rw [hd] at h
    cases hlo : formatEnd v.lo with
    | error e => simp [formatSupport, hlo, bind, Except.bind] at h
    | ok a =>
      cases hhi : formatEnd v.hi with
      | error e => simp [formatSupport, hlo, hhi, bind, Except.bind] at h
      | ok b =>
        simp only [formatSupport, hlo, hhi, bind, Except.bind, pure, Except.pure, Except.ok.injEq] at h
        have pd : Plain d := plain_description (fun n hn => plain_of (hv.names n hn)) hd
        have pa := formatEnd_clean _ hv.lo a hlo
        have pb := formatEnd_clean _ hv.hi b hhi
        have hafter : '<' ∉ (if v.obj.frozen then '(' :: d ++ [')'] else []) := by
          split_ifs
          · intro hc
            simp only [List.cons_append, List.mem_cons, List.mem_append, List.not_mem_nil, or_false] at hc
            rcases hc with hc | hc | hc
            · exact absurd hc (by decide)
            · exact (pd _ hc).1 rfl
            · exact absurd hc (by decide)
          · simp
        have hps : ∀ p ∈ [("Kind".toList, v.kind), ("Support".toList, '(' :: a ++ ", ".toList ++ b ++ ")".toList)] ++
            (if v.obj.frozen then tryPairs "Mean".toList v.mean ++ tryPairs "Std".toList v.std else []) ++
            waysPairs v.ways, Clean p.1 ∧ Clean p.2 := by
          have lit : ∀ s : List Char, (s = "Kind".toList ∨ s = "Support".toList ∨ s = "Mean".toList ∨ s = "Std".toList ∨
              s = "Parametrizations".toList) → Clean s := by
            rintro s (rfl | rfl | rfl | rfl | rfl) <;>
              exact ⟨by decide +kernel, by decide +kernel, by decide +kernel⟩
          intro p hp
          simp only [List.mem_append, List.mem_cons, List.not_mem_nil, or_false] at hp
          rcases hp with ((rfl | rfl) | hp) | hp
          · exact ⟨lit _ (by simp), hv.kind⟩
          · refine ⟨lit _ (by simp), clean_of (by simp) ?_⟩
            refine (((Plain.cons (by decide) (plain_clean pa)).append ?_).append (plain_clean pb)).append ?_
            · intro c hc; revert hc; revert c; decide +kernel
            · intro c hc; revert hc; revert c; decide +kernel
          · split_ifs at hp with hf
            · rcases List.mem_append.mp hp with hp | hp
              · cases hm : v.mean with
                | error e => rw [hm] at hp; simp [tryPairs] at hp
                | ok m =>
                  rw [hm] at hp
                  simp only [tryPairs, List.mem_singleton] at hp
                  subst hp
                  exact ⟨lit _ (by simp), hv.mean m hm⟩
              · cases hm : v.std with
                | error e => rw [hm] at hp; simp [tryPairs] at hp
                | ok m =>
                  rw [hm] at hp
                  simp only [tryPairs, List.mem_singleton] at hp
                  subst hp
                  exact ⟨lit _ (by simp), hv.std m hm⟩
            · simp at hp
          · cases hw : v.ways with
            | none => rw [hw] at hp; simp [waysPairs] at hp
            | some l =>
              cases l with
              | nil => rw [hw] at hp; simp [waysPairs] at hp
              | cons q l =>
                rw [hw] at hp
                simp only [waysPairs, List.mem_singleton] at hp
                subst hp
                have pl : Plain (join ", ".toList ((q :: l).map fun p => '(' :: join ", ".toList p ++ [')'])) := by
                  refine join_plain ?_
                  intro n hn
                  obtain ⟨p, hp, rfl⟩ := List.mem_map.mp hn
                  exact (Plain.cons (by decide) (join_plain fun n hn => plain_of (hv.ways _ hw p hp n hn))).append
                    (Plain.cons (by decide) plain_nil)
                refine ⟨lit _ (by simp), clean_of ?_ pl⟩
                intro e
                have : '(' ∈ join ", ".toList ((q :: l).map fun p => '(' :: join ", ".toList p ++ [')']) := by
                  cases l with
                  | nil => simp [join]
                  | cons b l => simp [join]
                have e' : join ", ".toList ((q :: l).map fun p => '(' :: join ", ".toList p ++ [')']) = [] := e
                rw [e'] at this
                simp at this
        have key := page_visible v.obj.name _ _ hv.name hafter hps
        simp only at key
        rw [h] at key
        refine ⟨key.2, if v.obj.frozen then v.obj.name ++ '(' :: d ++ [')'] else v.obj.name, a, b,
          [v.obj.name] ++ (if v.obj.frozen then ['(' :: d ++ [')']] else []), ?_, formatEnd_spec _ _ hlo,
          formatEnd_spec _ _ hhi, ?_, ?_, ?_⟩
        · cases hf : v.obj.frozen with
          | false => simp [Printed.repr, hf]
          | true => simp [Printed.repr, hf, hd, bind, Except.bind, pure, Except.pure]
        · cases v.obj.frozen <;> simp
        · simp
        · rw [key.1]
          rw [List.flatMap_append, List.flatMap_append, texts_ways, texts_mid]
          exact texts_all _ _ _ _ _ _ _ _

/-- the table is there whenever the distribution can be printed and its support has two numbers (or `None`) as ends;
a mean or deviation that cannot be computed does not matter -/
theorem table_exists_iff (v : View) :
    (∃ t, html v = .ok t) ↔ (∃ r, Printed.repr v.obj = .ok r) ∧ v.lo ≠ .array ∧ v.hi ≠ .array := by
  rw [← formatEnd_ok, ← formatEnd_ok, html_form]
  have hr : (∃ r, Printed.repr v.obj = .ok r) ↔ ∃ d, Printed.description v.obj = .ok d := by
    cases hf : v.obj.frozen with
    | false => simp [Printed.repr, Printed.description, hf]
    | true =>
      simp only [Printed.repr, hf, if_true]
      cases Printed.description v.obj <;> simp [bind, Except.bind, pure, Except.pure]
  rw [hr]
  cases Printed.description v.obj with
  | error e => simp [bind, Except.bind]
  | ok d =>
    cases h1 : formatEnd v.lo with
    | error e => simp [formatSupport, h1, bind, Except.bind]
    | ok a =>
      cases h2 : formatEnd v.hi with
      | error e => simp [formatSupport, h1, h2, bind, Except.bind]
      | ok b => simp [formatSupport, h1, h2, bind, Except.bind, pure, Except.pure]

/-- the shown ends can be read: the number read differs from the end by less than `10⁻¹⁰` -/
theorem end_reads (x : ℝ) (text t : List Char) (ht : readNumber text = some x) (h : EndShows (.real x text) t) :
    ∃ y, readNumber t = some y ∧ |y - x| < 1 / 10 ^ 10 ∧ (1 / 10 ^ 10 ≤ |x| → y = x) := by
  by_cases hx : |x| < 1 / 10 ^ 10 ∧ x ≠ 0
  · refine ⟨0, ?_, by simpa using hx.1, fun h' => absurd hx.1 (not_lt.mpr h')⟩
    rw [h.1 hx]
    simp [readNumber, readUnsigned, readMantissa, readNat, digitOf]
  · refine ⟨x, ?_, by simp, fun _ => rfl⟩
    rw [h.2, ht]
    by_cases h0 : x = 0
    · exact .inr h0
    · left
      by_contra hc
      exact hx ⟨not_le.mp hc, h0⟩

/-- every complete distribution of a family has its table, if the ends of its support are not arrays -/
theorem table_family (f : Param.Family) (o : Param.Obj) (h : Reach f o) (hp : NoPrecision f o) (hf : o.frozen = true)
    (name : String) (hn : '(' ∉ name.toList) (v : View) (hv : v.obj = Printed.ofParam name o)
    (hlo : v.lo ≠ .array) (hhi : v.hi ≠ .array) : ∃ t, html v = .ok t := by
  rw [table_exists_iff, hv]
  obtain ⟨t, r, h1, -⟩ := printed_family f o h hp hf name hn
  exact ⟨⟨t, h1⟩, hlo, hhi⟩

/-- `Uniform([0, 1], [2, 3])`: it can be printed, but the notebook shows an error instead of the table -/
theorem table_arrays_wrong : ∃ v : View, ViewClean v ∧ (∃ r, Printed.repr v.obj = .ok r) ∧
    (∃ m, v.mean = .ok m) ∧ html v = .error .valueError := by
  refine ⟨⟨⟨"Uniform".toList, ["lower".toList, "upper".toList],
    [.vec [.real 0, .real 1], .vec [.real 2, .real 3]], true⟩, "continuous".toList, .array, .array, .ok "1".toList,
    .ok "1".toList, none⟩, ?_, ?_, ⟨_, rfl⟩, ?_⟩
  · refine ⟨⟨by decide +kernel, by decide +kernel, by decide +kernel⟩,
      ⟨by decide +kernel, by decide +kernel, by decide +kernel⟩, ?_, trivial, trivial, ?_, ?_, ?_⟩
    · decide +kernel
    · rintro m hm; cases hm; exact ⟨by decide +kernel, by decide +kernel, by decide +kernel⟩
    · rintro m hm; cases hm; exact ⟨by decide +kernel, by decide +kernel, by decide +kernel⟩
    · rintro l hl; cases hl
  · simp [Printed.repr, Printed.description, Printed.item, bind, Except.bind, pure, Except.pure]
  · simp [html, Printed.description, Printed.item, formatSupport, formatEnd, bind, Except.bind, pure, Except.pure]

/-- the table of an incomplete Gamma distribution -/
example : ∃ t, html ⟨⟨"Gamma".toList, ["alpha".toList, "beta".toList], [], false⟩, "continuous".toList,
    .real 0 "0".toList, .posInf, .error .typeError, .error .typeError,
    some [["alpha".toList, "beta".toList], ["mu".toList, "sigma".toList]]⟩ = .ok t ∧
    visible t = ["Gamma".toList, "Kind".toList, "continuous".toList, "Support".toList, "(0, inf)".toList,
      "Parametrizations".toList, "(alpha, beta), (mu, sigma)".toList] := by
  apply Exists.intro
  constructor
  · simp only [html, formatSupport, formatEnd]
    simp only [abs_zero, lt_irrefl, false_and, if_false, bind, Except.bind, pure, Except.pure, Bool.false_eq_true]
    rfl
  · decide +kernel

/-! ## The catalogue -/

/-- names that can be listed -/
def Listable (l : List (List Char)) : Prop :=
  l ≠ [] ∧ ∀ n ∈ l, ',' ∉ n ∧ '\n' ∉ n ∧ '<' ∉ n ∧ '>' ∉ n

/-- C113: the text of the catalogue has, for each kind, a line with the number of names and a line with the names -/
theorem catalog_text (c d m w : List (List Char)) (hc : Listable c) (hd : Listable d) (hm : Listable m)
    (hw : Listable w) : ∃ bar nc tc nd td nm tm nw tw,
      fullLines (catalogText c d m w) = ["PreliZ Distributions".toList, bar,
        "Continuous (".toList ++ nc ++ "):".toList, "  ".toList ++ tc,
        "Discrete (".toList ++ nd ++ "):".toList, "  ".toList ++ td,
        "Multivariate (".toList ++ nm ++ "):".toList, "  ".toList ++ tm,
        "Modifiers (".toList ++ nw ++ "):".toList, "  ".toList ++ tw] ∧
      (∀ x ∈ bar, x = '=') ∧
      readNat nc = some c.length ∧ cutCommas [] tc = c ∧ readNat nd = some d.length ∧ cutCommas [] td = d ∧
      readNat nm = some m.length ∧ cutCommas [] tm = m ∧ readNat nw = some w.length ∧ cutCommas [] tw = w := by
  refine ⟨List.replicate 50 '=', decimal c.length, join ", ".toList c, decimal d.length, join ", ".toList d,
    decimal m.length, join ", ".toList m, decimal w.length, join ", ".toList w, ?_,
    fun x hx => (List.mem_replicate.mp hx).2, readNat_decimal _, cut_join c hc.1 fun n hn => (hc.2 n hn).1,
    readNat_decimal _, cut_join d hd.1 fun n hn => (hd.2 n hn).1, readNat_decimal _,
    cut_join m hm.1 fun n hn => (hm.2 n hn).1, readNat_decimal _, cut_join w hw.1 fun n hn => (hw.2 n hn).1⟩
  have nb : ∀ l : List (List Char), Listable l → '\n' ∉ "  ".toList ++ join ", ".toList l := by
    intro l hl h
    rcases List.mem_append.mp h with h | h
    · exact absurd h (by decide)
    · rcases join_mem h with h | ⟨n, hn, h⟩
      · exact absurd h (by decide)
      · exact (hl.2 n hn).2.1 h
  have hb : ∀ (s : String) (l : List (List Char)), '\n' ∉ s.toList →
      '\n' ∉ s.toList ++ " (".toList ++ decimal l.length ++ "):".toList := by
    intro s l hs h
    simp only [List.mem_append] at h
    rcases h with ((h | h) | h) | h
    · exact hs h
    · exact absurd h (by decide)
    · exact decimal_noBreak _ h
    · exact absurd h (by decide)
  have e : catalogText c d m w = "PreliZ Distributions".toList ++ '\n' :: (List.replicate 50 '=' ++ '\n' ::
      (("Continuous".toList ++ " (".toList ++ decimal c.length ++ "):".toList) ++ '\n' ::
      (("  ".toList ++ join ", ".toList c) ++ '\n' :: ([] ++ '\n' ::
      (("Discrete".toList ++ " (".toList ++ decimal d.length ++ "):".toList) ++ '\n' ::
      (("  ".toList ++ join ", ".toList d) ++ '\n' :: ([] ++ '\n' ::
      (("Multivariate".toList ++ " (".toList ++ decimal m.length ++ "):".toList) ++ '\n' ::
      (("  ".toList ++ join ", ".toList m) ++ '\n' :: ([] ++ '\n' ::
      (("Modifiers".toList ++ " (".toList ++ decimal w.length ++ "):".toList) ++ '\n' ::
      ("  ".toList ++ join ", ".toList w)))))))))))) := by
    simp only [catalogText, section_, List.cons_append, List.nil_append]
    simp only [join, List.append_assoc, List.cons_append, List.nil_append]
  rw [fullLines, e, lines_step (by decide +kernel), lines_step (by simp), lines_step (hb _ _ (by decide +kernel)),
    lines_step (nb c hc), lines_step (by simp), lines_step (hb _ _ (by decide +kernel)), lines_step (nb d hd),
    lines_step (by simp), lines_step (hb _ _ (by decide +kernel)), lines_step (nb m hm), lines_step (by simp),
    lines_step (hb _ _ (by decide +kernel)), lines_last (nb w hw)]
  simp

/-- C113: the page of the catalogue shows the same, and its tags match -/
theorem catalog_html (c d m w : List (List Char)) (hc : Listable c) (hd : Listable d) (hm : Listable m)
    (hw : Listable w) : WellFormed (catalogHtml c d m w) ∧ ∃ nc tc nd td nm tm nw tw,
      visible (catalogHtml c d m w) = ["PreliZ Distributions".toList,
        "Continuous".toList, " (".toList ++ nc ++ "): ".toList ++ tc,
        "Discrete".toList, " (".toList ++ nd ++ "): ".toList ++ td,
        "Multivariate".toList, " (".toList ++ nm ++ "): ".toList ++ tm,
        "Modifiers".toList, " (".toList ++ nw ++ "): ".toList ++ tw] ∧
      readNat nc = some c.length ∧ cutCommas [] tc = c ∧ readNat nd = some d.length ∧ cutCommas [] td = d ∧
      readNat nm = some m.length ∧ cutCommas [] tm = m ∧ readNat nw = some w.length ∧ cutCommas [] tw = w := by
  have pl : ∀ l : List (List Char), Listable l → '<' ∉ decimal l.length ++ "): ".toList ++ join ", ".toList l := by
    intro l hl h
    simp only [List.mem_append] at h
    rcases h with (h | h) | h
    · exact (decimal_plain _ _ h).1 rfl
    · exact absurd h (by decide)
    · rcases join_mem h with h | ⟨n, hn, h⟩
      · exact absurd h (by decide)
      · exact (hl.2 n hn).2.2.1 h
  have sec : ∀ (s : String) (l : List (List Char)), Clean s.toList → Listable l → ∀ cur out,
      (htmlSection s.toList l).foldl readChar (false, cur, out) =
        (false, " (".toList ++ decimal l.length ++ "): ".toList ++ join ", ".toList l,
          out ++ flushText cur ++ [.tag "b".toList, .text s.toList, .tag "/b".toList]) := by
    intro s l hs hl cur out
    have e : htmlSection s.toList l = "<b>".toList ++ s.toList ++ "</b> (".toList ++
        (decimal l.length ++ "): ".toList ++ join ", ".toList l) := by simp [htmlSection]
    rw [e]
    simp only [List.foldl_append (l' := s.toList), List.foldl_append (l' := "</b> (".toList),
      List.foldl_append (l' := decimal l.length ++ "): ".toList ++ join ", ".toList l)]
    rw [fold_lit (s := "<b>".toList) (cur' := []) (evs := [.tag "b".toList]) (by decide +kernel) (by decide +kernel),
      fold_text hs.2.1, fold_lit (s := "</b> (".toList) (cur' := " (".toList) (evs := [.tag "/b".toList])
        (by decide +kernel) (by decide +kernel), fold_text (pl l hl)]
    simp only [List.nil_append, flush_text hs.1]
    simp
  have br : ∀ cur out, "<br><br>".toList.foldl readChar (false, cur, out) =
      (false, [], out ++ flushText cur ++ [.tag "br".toList, .tag "br".toList]) :=
    fun cur out => fold_lit (by decide +kernel) (by decide +kernel) cur out
  have ne : ∀ l : List (List Char), (" (".toList ++ decimal l.length ++ "): ".toList ++ join ", ".toList l) ≠ [] := by
    intro l; simp
  have cl : Clean "Continuous".toList ∧ Clean "Discrete".toList ∧ Clean "Multivariate".toList ∧ Clean "Modifiers".toList := by
    refine ⟨?_, ?_, ?_, ?_⟩ <;> exact ⟨by decide +kernel, by decide +kernel, by decide +kernel⟩
  have key : pieces (catalogHtml c d m w) =
      [.tag "div style='font-family: monospace'".toList, .tag "b".toList, .text "PreliZ Distributions".toList,
       .tag "/b".toList, .tag "br".toList, .tag "br".toList,
       .tag "b".toList, .text "Continuous".toList, .tag "/b".toList,
       .text (" (".toList ++ decimal c.length ++ "): ".toList ++ join ", ".toList c), .tag "br".toList, .tag "br".toList,
       .tag "b".toList, .text "Discrete".toList, .tag "/b".toList,
       .text (" (".toList ++ decimal d.length ++ "): ".toList ++ join ", ".toList d), .tag "br".toList, .tag "br".toList,
       .tag "b".toList, .text "Multivariate".toList, .tag "/b".toList,
       .text (" (".toList ++ decimal m.length ++ "): ".toList ++ join ", ".toList m), .tag "br".toList, .tag "br".toList,
       .tag "b".toList, .text "Modifiers".toList, .tag "/b".toList,
       .text (" (".toList ++ decimal w.length ++ "): ".toList ++ join ", ".toList w), .tag "/div".toList] := by
    unfold pieces catalogHtml
    simp only [List.foldl_append (l' := "<br><br>".toList), List.foldl_append (l' := "</div>".toList),
      List.foldl_append (l' := htmlSection _ _)]
    rw [fold_lit (s := "<div style='font-family: monospace'><b>PreliZ Distributions</b><br><br>".toList) (cur' := [])
      (evs := [.tag "div style='font-family: monospace'".toList, .tag "b".toList, .text "PreliZ Distributions".toList,
       .tag "/b".toList, .tag "br".toList, .tag "br".toList]) (by decide +kernel) (by decide +kernel),
      sec _ _ cl.1 hc, br, sec _ _ cl.2.1 hd, br, sec _ _ cl.2.2.1 hm, br, sec _ _ cl.2.2.2 hw,
      fold_lit (s := "</div>".toList) (cur' := []) (evs := [.tag "/div".toList]) (by decide +kernel) (by decide +kernel)]
    simp only [flush_text (ne _)]
    simp [flushText]
  refine ⟨?_, decimal c.length, join ", ".toList c, decimal d.length, join ", ".toList d, decimal m.length,
    join ", ".toList m, decimal w.length, join ", ".toList w, ?_, readNat_decimal _,
    cut_join c hc.1 fun n hn => (hc.2 n hn).1, readNat_decimal _, cut_join d hd.1 fun n hn => (hd.2 n hn).1,
    readNat_decimal _, cut_join m hm.1 fun n hn => (hm.2 n hn).1, readNat_decimal _,
    cut_join w hw.1 fun n hn => (hw.2 n hn).1⟩
  · unfold WellFormed
    rw [key]
    rfl
  · unfold visible
    rw [key]
    rfl

/-- what the two overviews list: every name of the package, once -/
theorem catalog_lists : Listable theContinuous ∧ Listable theDiscrete ∧ Listable theMultivariate ∧
    Listable theModifiers ∧ (theContinuous ++ theDiscrete ++ theMultivariate ++ theModifiers).Nodup ∧
    ∀ n : String, n.toList ∈ theContinuous ++ theDiscrete ++ theMultivariate ++ theModifiers ↔ n ∈ Catalog.existing := by
  refine ⟨⟨by decide +kernel, by decide +kernel⟩, ⟨by decide +kernel, by decide +kernel⟩,
    ⟨by decide +kernel, by decide +kernel⟩, ⟨by decide +kernel, by decide +kernel⟩, by decide +kernel, ?_⟩
  intro n
  simp only [theContinuous, theDiscrete, theMultivariate, theModifiers, Catalog.existing, List.mem_append, List.mem_map]
  have e : ∀ a : String, a.toList = n.toList ↔ a = n := fun a => String.toList_inj
  simp only [e]
  simp

/-- `catalog.info` works for the names of the first three kinds, and says the right kind -/
theorem catalog_info_partial (name : String) :
    (name.toList ∈ theContinuous → catalogInfo name = .ok "continuous") ∧
    (name.toList ∈ theDiscrete → catalogInfo name = .ok "discrete") ∧
    (name.toList ∈ theMultivariate → catalogInfo name = .ok "continuous_multivariate") ∧
    (name ∉ Catalog.existing → catalogInfo name = .error .attributeError) := by
  have key : ∀ l : List String, name.toList ∈ l.map String.toList → name ∈ l := by
    intro l h
    obtain ⟨a, ha, e⟩ := List.mem_map.mp h
    rwa [← String.toList_inj.mp e]
  have c1 : ∀ n ∈ Catalog.allContinuous.map Catalog.Entry.name, catalogInfo n = .ok "continuous" := by decide +kernel
  have c2 : ∀ n ∈ Catalog.allDiscrete.map Catalog.Entry.name, catalogInfo n = .ok "discrete" := by decide +kernel
  have c3 : ∀ n ∈ Catalog.allMultivariate, catalogInfo n = .ok "continuous_multivariate" := by decide +kernel
  refine ⟨fun h => c1 _ (key _ (by simpa [theContinuous] using h)), fun h => c2 _ (key _ (by simpa [theDiscrete] using h)),
    fun h => c3 _ (key _ h), ?_⟩
  intro h
  simp only [Catalog.existing, List.mem_append, not_or] at h
  unfold catalogInfo
  rw [if_neg h.2, if_neg h.1.1.1, if_neg h.1.1.2, if_neg h.1.2]

/-- the names under "Modifiers" are listed as well, but `catalog.info` fails for each of them -/
theorem catalog_info_wrong : theModifiers ≠ [] ∧ ∀ name : String, name.toList ∈ theModifiers →
    name ∈ Catalog.existing ∧ catalogInfo name = .error .typeError := by
  refine ⟨by decide +kernel, fun name h => ?_⟩
  obtain ⟨a, ha, e⟩ := List.mem_map.mp h
  rw [← String.toList_inj.mp e]
  refine ⟨by simp only [Catalog.existing, List.mem_append]; exact .inr ha, ?_⟩
  unfold catalogInfo
  rw [if_pos ha]

end Verif.Props
