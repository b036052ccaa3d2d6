import Verif.Model.Ppl

/-!
# What `ppe` learns about the variables of a model (ppls/pymc_io.py:97-99, 135-178 and 222-230)

The expression graph of PyTensor is unfolded into a tree: a node is a constant, a random variable (with an identity) or
anything else, and has inputs.  `value_vars` and `free_RVs` of a model are in the same order, so the value variable of a
free variable is part of it here.  `ancestors` (PyTensor), `is_transformed_name` and `get_untransformed_name` (PyMC) are
outside the repository; they are written down as documented there.  Back-transformations act on each draw separately.
-/

namespace Verif.VarGraph
open Verif Verif.Ppl

inductive Kind
  /-- a `TensorConstant` -/
  | const
  /-- a random variable, free or observed -/
  | rv (id : ℕ)
  | other

inductive Var
  | node (kind : Kind) (inputs : List Var)

def Var.kind : Var → Kind
  | .node k _ => k

def Var.inputs : Var → List Var
  | .node _ l => l

/-- `isinstance(variable, TensorConstant)` -/
def Var.isConst (v : Var) : Bool :=
  match v.kind with
  | .const => true
  | _ => false

/-- whether the node is the random variable `i` -/
def Var.isRV (i : ℕ) (v : Var) : Bool :=
  match v.kind with
  | .rv j => decide (j = i)
  | _ => false

mutual
/-- `pytensor.graph.traversal.ancestors([v])`, with repetitions -/
def ancestors : Var → List Var
  | .node k l => .node k l :: ancestorsAll l
def ancestorsAll : List Var → List Var
  | [] => []
  | v :: vs => ancestors v ++ ancestorsAll vs
end

/-- a free random variable with its value variable -/
structure FreeRV where
  id : ℕ
  name : List Char
  /-- `inputs[2:]` of its node -/
  params : List Var
  /-- name of the value variable -/
  valueName : List Char
  /-- `model.rvs_to_transforms[rv].backward`, on one draw -/
  transform : Option (List ℝ → List ℝ)
  /-- shape and values of the initial point -/
  shape : List ℕ
  start : List ℝ

structure Model where
  free : List FreeRV
  /-- sizes of the observed variables -/
  observed : List ℕ

/-- pymc_io.py:226-229: one parameter -/
def addParents (free : List FreeRV) (parents : List ℕ) (v : Var) : List ℕ :=
  if v.isConst then parents
  else free.foldl (fun ps r => if (ancestors v).any (Var.isRV r.id) && !(decide (r.id ∈ ps)) then ps ++ [r.id] else ps) parents

/-- pymc_io.py:222-230 -/
def nonConstantParents (free : List FreeRV) (params : List Var) : List ℕ :=
  params.foldl (addParents free) []

/-- `model.free_RVs.index(var_)` -/
def indexOf (free : List FreeRV) (i : ℕ) : Except Err ℕ :=
  match free.findIdx? fun r => decide (r.id = i) with
  | some k => .ok k
  | none => .error .valueError

/-- PyMC: `name.endswith("__") and name.count("_") >= 3` -/
def isTransformedName (n : List Char) : Bool :=
  decide (n.reverse.take 2 = ['_', '_']) && decide (3 ≤ n.count '_')

/-- PyMC: `"_".join(name.split("_")[:-3])` -/
def untransformedName (n : List Char) : List Char :=
  let parts := n.splitOn '_'
  ['_'].intercalate (parts.take (parts.length - 3))

/-- one entry of `var_info` with its key -/
structure Info where
  name : List Char
  shape : List ℕ
  size : ℕ
  transform : Option (List ℝ → List ℝ)
  parents : List ℕ

/-- pymc_io.py:139-162: one value variable -/
def oneInfo (free : List FreeRV) (r : FreeRV) : Except Err Info := do
  let parents ← (nonConstantParents free r.params).mapM (indexOf free)
  if isTransformedName r.valueName then
    match r.transform with
    | none => .error .attributeError
    | some f => return ⟨untransformedName r.valueName, r.shape, r.start.length, some f, parents⟩
  else return ⟨r.valueName, r.shape, r.start.length, none, parents⟩

/-- `var_info[name] = …` -/
def setEntry (d : List Info) (e : Info) : List Info :=
  if d.any (fun x => decide (x.name = e.name)) then d.map fun x => if x.name = e.name then e else x
  else d ++ [e]

/-- pymc_io.py:139-162: one pass of the loop -/
def addInfo (free : List FreeRV) (d : List Info) (r : FreeRV) : Except Err (List Info) := do
  let e ← oneInfo free r
  return setEntry d e

/-- pymc_io.py:135-164: `var_info` and `num_draws` -/
def retrieve (m : Model) : Except Err (List Info × ℕ) := do
  let infos ← m.free.foldlM (addInfo m.free) []
  match m.observed with
  | [] => .error .indexError
  | n :: _ => return (infos, n)

/-- pymc_io.py:97-99 -/
def initialGuess (m : Model) : List ℝ := (m.free.map FreeRV.start).flatten

/-- pymc_io.py:173-174 -/
def Info.backAll (e : Info) (vector : List (List ℝ)) : List (List ℝ) :=
  match e.transform with
  | none => vector
  | some f => vector.map f

/-- pymc_io.py:167-178 -/
def unravelAll (rows : List (List ℝ)) (iterations : ℕ) :
    ℕ → List Info → Except Err (List (List Char × List (List ℝ) × List ℕ))
  | _, [] => .ok []
  | start, e :: es => do
    let vector := e.backAll (columns rows start e.size)
    let shape ← reshaped iterations e.shape (vector.map List.length).sum
    let rest ← unravelAll rows iterations (start + e.size) es
    return (e.name, vector, shape) :: rest

/-- an entry as the writers of the model text see it -/
def Info.toVarInfo (e : Info) : VarInfo := ⟨String.ofList e.name, e.shape, e.size, e.parents⟩

/-- pymc_io.py:32-47: every key is looked up in the dictionary of distributions, whose keys are the names of the free
variables (pymc_io.py:124-130) -/
def lookups (m : Model) (infos : List Info) : Except Err Unit :=
  if infos.all fun e => decide (e.name ∈ m.free.map FreeRV.name) then .ok () else .error .keyError

/-- ppe.py:69-104 apart from the numbers: `rows` is the result of the optimisation; the fits do not fail -/
def ppeText (m : Model) (rows : List (List ℝ)) : Except Err (List Decl) := do
  let info ← retrieve m
  let _ ← unravelAll rows rows.length 0 info.1
  let _ ← lookups m info.1
  writeModel (info.1.map Info.toVarInfo)

end Verif.VarGraph
