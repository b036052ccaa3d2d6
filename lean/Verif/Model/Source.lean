import Verif.Model.ExplorerBambi

/-!
# Opening predictive_explorer

predictive/predictive_explorer.py:64-72, ppls/agnostic.py:108-125 (`inspect_source`, `get_engine`), internal/plot_helper.py:391-419.

The user's function is its source, its parameters and what a call does.  Simplified: every parameter can be given by
keyword, there is at least one, and defaults that are floats are not NaN.  The widgets of the layout (plot_helper.py:421-470)
are left out.
-/

namespace Verif.Explorer
open Verif Verif.Extra

variable {D : Type}

/-- a parameter of the function -/
structure Par (D : Type) where
  name : List Char
  default : Option D

/-- what is looked at of the object the function returns: the truth of `getattr(model, "basic_RVs", False)` and
`getattr(model, "formula", False)` -/
structure Built where
  basicRVs : Bool
  formula : Bool

/-- the user's function; in a call, `none` is NaN -/
structure FModel (D : Type) where
  source : List Char
  params : List (Par D)
  call : List (List Char × Option D) → Except Err Built

inductive Library
  | preliz
  | pymc
  | bambi
  deriving DecidableEq

/-- agnostic.py:120-125 -/
def getEngine (b : Built) : Library :=
  if b.basicRVs then .pymc else if b.formula then .bambi else .preliz

/-- agnostic.py:108-117 -/
def inspectSource (f : FModel D) : Except Err (List Char × Library) := do
  let b ← f.call (f.params.map fun p => (p.name, p.default))
  return (stripComments f.source, getEngine b)

variable (word space : Char → Bool)

/-- agnostic.py:128-155, the three engines -/
def parseFor (slots : List Char → Except Err (List Slot)) (vars : List (List Char)) (e : Library) (source : List Char) :
    Except Err (List Char → Option Known) :=
  match e with
  | .preliz => parse word space slots vars .preliz source
  | .pymc => parse word space slots vars .pymc source
  | .bambi => parseBambi word space slots vars source

/-- plot_helper.py:392-419: the text boxes by name; `num` is the value of a default that is an `int` or a `float` -/
noncomputable def textBoxes (num : D → Option ℝ) (m : List Char → Option Known) (params : List (Par D)) :
    Except Err (List (List Char × TextBox)) :=
  params.mapM fun p => do
    let b ← textBox m p.name (p.default.bind num)
    return (p.name, b)

/-- predictive_explorer.py:66-71: the text boxes, and the engine the function is drawn with.  Line 66 overwrites the
argument `engine` (`none` is "auto"). -/
noncomputable def predictiveExplorer (slots : List Char → Except Err (List Slot)) (num : D → Option ℝ) (f : FModel D)
    (engine : Option Library) : Except Err (List (List Char × TextBox) × Library) := do
  let _ := engine
  let (source, engine) ← inspectSource f
  let m ← parseFor word space slots (f.params.map Par.name) engine source
  let boxes ← textBoxes num m f.params
  return (boxes, engine)

end Verif.Explorer
