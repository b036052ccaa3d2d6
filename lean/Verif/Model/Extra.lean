import Verif.Basics

/-!
# process_extra (preliz/internal/distribution_helper.py:68-83)

Which characters count as word characters (`\w`) or white space and what `float` accepts are parameters.
Dictionaries are functions: the order of their keys is not modelled.
-/

namespace Verif.Extra

/-- `(.*?)\)`: the shortest text without a line break up to a closing bracket, and what follows it -/
def content : List Char → Option (List Char × List Char)
  | [] => none
  | c :: cs =>
    if c = ')' then some ([], cs)
    else if c = '\n' then none
    else (content cs).map fun p => (c :: p.1, p.2)

theorem content_length : ∀ (l b r : List Char), content l = some (b, r) → r.length < l.length
  | [], b, r, h => by simp [content] at h
  | c :: cs, b, r, h => by
    unfold content at h
    split_ifs at h with h1 h2
    · simp only [Option.some.injEq, Prod.mk.injEq] at h
      obtain ⟨-, rfl⟩ := h
      simp
    · cases hc : content cs with
      | none => simp [hc] at h
      | some p =>
        simp only [hc, Option.map_some, Option.some.injEq, Prod.mk.injEq] at h
        have := content_length cs p.1 p.2 (by rw [hc])
        rw [h.2] at this
        simp only [List.length_cons]; omega

/-- `(\w+)\((.*?)\)` at the beginning of a text: name, contents, what follows -/
def matchHere (word : Char → Bool) (l : List Char) : Option (List Char × List Char × List Char) :=
  if l.takeWhile word = [] then none
  else
    match l.dropWhile word with
    | [] => none
    | c :: r =>
      if c = '(' then (content r).map fun p => (l.takeWhile word, p.1, p.2)
      else none

theorem matchHere_length (word : Char → Bool) (l n b r : List Char) (h : matchHere word l = some (n, b, r)) :
    r.length < l.length := by
  unfold matchHere at h
  split_ifs at h with h1
  split at h
  · simp at h
  · rename_i c cs hd
    split_ifs at h with h2
    cases hc : content cs with
    | none => simp [hc] at h
    | some p =>
      simp only [hc, Option.map_some, Option.some.injEq, Prod.mk.injEq] at h
      have h3 := content_length cs p.1 p.2 (by rw [hc])
      rw [h.2.2] at h3
      have h4 : (l.dropWhile word).length ≤ l.length := by
        have := congrArg List.length (List.takeWhile_append_dropWhile (p := word) (l := l))
        rw [List.length_append] at this; omega
      rw [hd] at h4
      simp only [List.length_cons] at h4
      omega

/-- `re.findall` (distribution_helper.py:69-70) -/
def findall (word : Char → Bool) (l : List Char) : List (List Char × List Char) :=
  match hl : l with
  | [] => []
  | c :: cs =>
    match h : matchHere word (c :: cs) with
    | some (n, b, r) =>
      have : r.length < (c :: cs).length := matchHere_length word _ n b r h
      (n, b) :: findall word r
    | none => findall word cs
termination_by l.length
decreasing_by
  all_goals simp_all

/-- `str.split` with a one-character separator -/
def splitChar (sep : Char) : List Char → List (List Char)
  | [] => [[]]
  | c :: cs =>
    if c = sep then [] :: splitChar sep cs
    else
      match splitChar sep cs with
      | [] => [[c]]
      | h :: t => (c :: h) :: t

/-- `str.strip` -/
def strip (space : Char → Bool) (l : List Char) : List Char :=
  ((l.dropWhile space).reverse.dropWhile space).reverse

/-- distribution_helper.py:77-78: one `key=value` -/
def item {V : Type} (space : Char → Bool) (float : List Char → Option V) (arg : List Char) :
    Option (List Char × V) :=
  match splitChar '=' arg with
  | [key, value] => (float value).map fun v => (strip space key, v)
  | _ => none

/-- distribution_helper.py:73-82: the items one after the other; `none` is the `ValueError` -/
def items {V : Type} (space : Char → Bool) (float : List Char → Option V) :
    List (List Char) → (List Char → Option V) → Option (List Char → Option V)
  | [], d => some d
  | a :: rest, d =>
    match item space float a with
    | none => none
    | some (k, v) => items space float rest (Function.update d k (some v))

/-- distribution_helper.py:71-83: the matches one after the other -/
def entries {V : Type} (space : Char → Bool) (float : List Char → Option V) :
    List (List Char × List Char) → (List Char → Option (List Char → Option V)) →
    (List Char → Option (List Char → Option V))
  | [], d => d
  | (name, args) :: rest, d =>
    match items space float (splitChar ',' args) fun _ => none with
    | none => entries space float rest d
    | some a => entries space float rest (Function.update d name (some a))

/-- distribution_helper.py:68-83 `process_extra` -/
def processExtra {V : Type} (word space : Char → Bool) (float : List Char → Option V) (text : List Char) :
    List Char → Option (List Char → Option V) :=
  entries space float (findall word text) fun _ => none

end Verif.Extra
