import Verif.Model.Nest

/-! # What a nested expression asks for -/

namespace Verif.Nest
open Verif Verif.Wrapper

/-- the own arguments of a modifier: as many as it takes, `None` for a bound means infinite, psi is given -/
structure Given (w : Kind × List (Option Val)) : Prop where
  arity : w.2.length = if w.1 = .hurdle then 1 else 2
  psi : w.1 = .hurdle → none ∉ w.2

/-- the values asked for: missing bounds are infinite -/
noncomputable def wanted (w : Kind × List (Option Val)) : List (Option Val) :=
  match w with
  | (.hurdle, own) => own
  | (_, [l, u]) => [some (l.getD (.num ⊥)), some (u.getD (.num ⊤))]
  | (_, own) => own

/-- names of a modifier's own arguments -/
def ownNames : Kind → List String
  | .hurdle => ["psi"]
  | _ => ["lower", "upper"]

/-- no two of the innermost distribution and the modifiers have a parameter name in common -/
def NoClash (lf : Leaf) (ws : List (Kind × List (Option Val))) : Prop :=
  (lf.names ++ (ws.reverse.map fun w => ownNames w.1).flatten).Nodup

/-- a family, completely specified: it accepts its own parameters, and all have values -/
structure Complete (lf : Leaf) (vals : List (Option Val)) : Prop where
  accepts : ∀ n ∈ lf.names, n ∈ lf.accepts
  nodup : lf.names.Nodup
  length : vals.length = lf.names.length
  given : none ∉ vals

/-- some families of the package as innermost distributions -/
def normal : Leaf := ⟨["mu", "sigma"], ["mu", "sigma", "tau"], fun _ _ => none⟩
def uniform : Leaf := ⟨["lower", "upper"], ["lower", "upper"], fun _ _ => none⟩
def ziPoisson : Leaf := ⟨["psi", "mu"], ["psi", "mu"], fun _ _ => none⟩
noncomputable def truncatedNormal : Leaf := ⟨["mu", "sigma", "lower", "upper"], ["mu", "sigma", "lower", "upper"],
  fun n _ => if n = "lower" then some (.num ⊥) else if n = "upper" then some (.num ⊤) else none⟩
/-- a Mixture of components with the given parameter names -/
def mixture (comps : List (List String)) : Leaf := ⟨comps.flatten ++ ["weights"], ["weights"], fun _ _ => none⟩

end Verif.Nest
