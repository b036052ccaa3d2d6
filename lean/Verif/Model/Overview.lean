import Verif.Model.Printed
import Verif.Model.Catalog
import Verif.Model.Info
import Verif.Model.WarnText

/-!
# Overviews: the table of a distribution in a notebook, the list of all distributions

Texts are lists of characters.  The texts of the finite ends of a support (`str`) are taken as they are.
-/

namespace Verif.Overview
open Verif

/-- one end of a support: a finite number with its text, an infinite one, `nan`, `None`, an array with more
or fewer than one entry (arrays of one entry are not modelled) -/
inductive End
  | real (x : ℝ) (text : List Char)
  | posInf
  | negInf
  | nan
  | missing
  | array

/-- `_format_support_value` (distributions.py:1194-1201), then `str`.  The comparison of an array with infinity is
an array, which has no truth value. -/
noncomputable def formatEnd : End → Except Err (List Char)
  | .array => .error .valueError
  | .posInf => .ok "inf".toList
  | .negInf => .ok "-inf".toList
  | .nan => .ok "nan".toList
  | .missing => .ok "None".toList
  | .real x text => if 0 < |x| ∧ |x| < 1 / 10 ^ 10 then .ok "0".toList else .ok text

/-- `_format_support` of a pair (distributions.py:1204-1207) -/
noncomputable def formatSupport (lo hi : End) : Except Err (List Char × List Char) := do
  let a ← formatEnd lo
  let b ← formatEnd hi
  return (a, b)

/-- `sep.join` -/
def join (sep : List Char) : List (List Char) → List Char
  | [] => []
  | [a] => a
  | a :: l => a ++ sep ++ join sep l

/-- what the table of a distribution is made of; `mean` and `std` are the texts, or what calling the method or
formatting its result raises -/
structure View where
  obj : Printed.Obj
  kind : List Char
  lo : End
  hi : End
  mean : Except Err (List Char)
  std : Except Err (List Char)
  ways : Option (List (List (List Char)))

/-- one row (distributions.py:81-83, 90, 94, 98, 105-107) -/
def row (label value : List Char) : List Char :=
  "<tr><td style='text-align:right;padding-right:10px'><i>".toList ++ label ++ "</i></td><td>".toList ++ value ++
    "</td></tr>".toList

/-- `try: rows.append(…) except Exception: pass` (distributions.py:93-100) -/
def tryRow (label : List Char) : Except Err (List Char) → List (List Char)
  | .ok v => [row label v]
  | .error _ => []

/-- distributions.py:102-107 -/
def wayRows : Option (List (List (List Char))) → List (List Char)
  | none => []
  | some [] => []
  | some l => [row "Parametrizations".toList (join ", ".toList (l.map fun p => '(' :: join ", ".toList p ++ [')']))]

/-- `Distribution._repr_html_` (distributions.py:72-114) -/
noncomputable def html (v : View) : Except Err (List Char) := do
  let summary ←
    if v.obj.frozen then do
      let d ← Printed.description v.obj
      pure ("<b>".toList ++ v.obj.name ++ "</b>(".toList ++ d ++ ")".toList)
    else pure ("<b>".toList ++ v.obj.name ++ "</b>".toList)
  let s ← formatSupport v.lo v.hi
  let rows := [row "Kind".toList v.kind] ++
    [row "Support".toList ('(' :: s.1 ++ ", ".toList ++ s.2 ++ ")".toList)] ++
    (if v.obj.frozen then tryRow "Mean".toList v.mean ++ tryRow "Std".toList v.std else []) ++
    wayRows v.ways
  return "<details><summary>".toList ++ summary ++ "</summary>".toList ++
    "<table style='margin-left:20px;margin-top:5px'>".toList ++ rows.flatten ++ "</table></details>".toList

/-- what `mean()` or `std()` can do: a finite number, an infinite one, `nan`, an array, an exception -/
inductive Answer
  | real (x : ℝ)
  | posInf
  | negInf
  | nan
  | array
  | raises (e : Err)

/-- `f"{self.mean():.2g}"`, `f"{self.std():.2g}"` (distributions.py:94, 98).  An array does not take a format. -/
noncomputable def cellText : Answer → Except Err (List Char)
  | .real x => .ok (WarnText.gFmt 2 x)
  | .posInf => .ok "inf".toList
  | .negInf => .ok "-inf".toList
  | .nan => .ok "nan".toList
  | .array => .error .typeError
  | .raises e => .error e

/-! ## The catalogue -/

/-- the text of a natural number -/
def decimal (n : ℕ) : List Char := if n = 0 then ['0'] else Printed.chars (Nat.digits 10 n).reverse

/-- catalog.py:228-236, one kind of distributions: two lines -/
def section_ (title : List Char) (names : List (List Char)) : List (List Char) :=
  [title ++ " (".toList ++ decimal names.length ++ "):".toList, "  ".toList ++ join ", ".toList names]

/-- `DistributionCatalog.__repr__` (catalog.py:221-237) for the four lists of names -/
def catalogText (c d m w : List (List Char)) : List Char :=
  join ['\n'] (["PreliZ Distributions".toList, List.replicate 50 '='] ++ section_ "Continuous".toList c ++
    section_ ('\n' :: "Discrete".toList) d ++ section_ ('\n' :: "Multivariate".toList) m ++
    section_ ('\n' :: "Modifiers".toList) w)

/-- catalog.py:247-254, one kind of distributions -/
def htmlSection (title : List Char) (names : List (List Char)) : List Char :=
  "<b>".toList ++ title ++ "</b> (".toList ++ decimal names.length ++ "): ".toList ++ join ", ".toList names

/-- `DistributionCatalog._repr_html_` (catalog.py:239-257) -/
def catalogHtml (c d m w : List (List Char)) : List Char :=
  "<div style='font-family: monospace'><b>PreliZ Distributions</b><br><br>".toList ++
    htmlSection "Continuous".toList c ++ "<br><br>".toList ++ htmlSection "Discrete".toList d ++ "<br><br>".toList ++
    htmlSection "Multivariate".toList m ++ "<br><br>".toList ++ htmlSection "Modifiers".toList w ++ "</div>".toList

/-- the four lists (distributions/__init__.py:52-104) -/
def theContinuous : List (List Char) := Catalog.allContinuous.map fun e => e.name.toList
def theDiscrete : List (List Char) := Catalog.allDiscrete.map fun e => e.name.toList
def theMultivariate : List (List Char) := Catalog.allMultivariate.map String.toList
def theModifiers : List (List Char) := Catalog.allModifiers.map String.toList

/-- `catalog.info(name)` (catalog.py:319-345), as far as it depends on the name: the kind it reports.  The class of
a modifier cannot be called without arguments (mixture.py:38, truncated.py:43, censored.py:46, hurdle.py:50). -/
def catalogInfo (name : String) : Except Err String :=
  if name ∈ Catalog.allModifiers then .error .typeError
  else if name ∈ Catalog.allContinuous.map Catalog.Entry.name then .ok "continuous"
  else if name ∈ Catalog.allDiscrete.map Catalog.Entry.name then .ok "discrete"
  else if name ∈ Catalog.allMultivariate then .ok "continuous_multivariate"
  else .error .attributeError

end Verif.Overview
