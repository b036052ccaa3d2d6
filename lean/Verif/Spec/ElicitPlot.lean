import Verif.Model.ElicitPlot

/-!
# What the plot of an elicitation function should show, and where
-/

namespace Verif.Spec
open Verif Verif.ElicitPlot

variable {C : Type}

/-- the lines `ls` have been added to the axes `a`, and nothing has been drawn elsewhere -/
structure AddedOn (w w' : World C) (a : ℕ) (ls : List (Line C)) : Prop where
  exist : a < w'.axes.length
  here : w'.linesOf a = w.linesOf a ++ ls
  elsewhere : ∀ b, b ≠ a → w'.linesOf b = w.linesOf b

/-- the axes of the active figure exist -/
def World.Fine (w : World C) : Prop := ∀ a, w.active = some a → a < w.axes.length

/-- where a plot belongs: on the axes asked for, else on the active ones, else on new ones -/
def place (w : World C) (asked : Option ℕ) : ℕ :=
  match asked, w.active with
  | some a, _ => a
  | none, some a => a
  | none, none => w.axes.length

/-- a dictionary: no keyword twice; the keywords meant for matplotlib are none of those of `plot_pdf` -/
structure Proper (kw : List (Setting C)) : Prop where
  nodup : (kw.map Setting.name).Nodup
  styles : ∀ n, Setting.style n ∈ kw → n ∉ ["moments", "pointinterval", "interval", "levels", "support", "baseline",
    "legend", "figsize", "ax", "color"]

/-- colours of the lines of one kind -/
def colours (k : What) (ls : List (Line C)) : List (Colour C) := (ls.filter fun l => l.what = k).map Line.colour

end Verif.Spec
