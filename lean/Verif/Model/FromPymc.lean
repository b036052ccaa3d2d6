import Verif.Model.Ppl
import Verif.Model.Catalog

/-!
# Conversion of PyMC variables and Prior objects: preliz/ppls/pymc_io.py:233-372

`Ppl.fromNode`, `Ppl.reparametrize`, `Ppl.zeroInflated` and `Ppl.bounds` convert one node; here is the
recursion over compound nodes.  Parameters are scalars (MvNormal and Dirichlet are not modelled).  The
result lists the arguments handed to the PreliZ constructors; the constructors themselves are modelled
elsewhere (`Param`, `Wrapper`).
-/

namespace Verif.Ppl
open Verif

/-- a PyMC variable, by the printed name of its operator and its inputs (pymc_io.py:254).  `truncated b`
is the operator printed as "Truncated" followed by `b`, where `b` is not "Normal" (the operator
"TruncatedNormal" is an ordinary one, pymc_io.py:270).  `hurdle w b i`: weights, printed name of the
last component without "Truncated" (pymc_io.py:307), and inputs of the last component. -/
inductive Node
  | plain (name : String) (inputs : List Input)
  | censored (base : Node) (lower upper : Option ℝ)
  | truncated (base : String) (inputs : List Input)
  | mixture (weights : List (Option ℝ)) (comps : List Node)
  | hurdle (weights : List (Option ℝ)) (base : String) (inputs : List Input)

/-- the PreliZ object: class, and arguments of the constructor -/
inductive PDist
  | family (name : String) (args : Args)
  | censored (base : PDist) (lower upper : EReal)
  | truncated (base : PDist) (lower upper : EReal)
  | mixture (comps : List PDist) (weights : List (Option ℝ))
  | hurdle (base : PDist) (psi : Option ℝ)

/-- the printed name of the operator -/
def Node.opName : Node → String
  | .plain name _ => name
  | .censored _ _ _ => "Censored"
  | .truncated base _ => "Truncated" ++ base
  | .mixture _ _ => "Mixture"
  | .hurdle _ _ _ => "Hurdle"

/-- inputs of an operator that are numbers; compound nodes have none the conversion can use -/
def Node.inputs : Node → List Input
  | .plain _ i => i
  | .truncated _ i => i
  | _ => []

/-- a lookup in `preliz.distributions`, followed by a call -/
def lookup (name : String) (err : Err) (args : Except Err Args) : Except Err PDist :=
  if name ∈ Catalog.existing then
    match args with
    | .ok a => .ok (.family name a)
    | .error e => .error e
  else .error err

/-- a bound, read as a scalar; a missing input or one that is not a number does not occur for nodes
built by PyMC (`none`) -/
def bound (i : List Input) (fromEnd : ℕ) : Option (Option ℝ) :=
  match i.reverse[fromEnd]? with
  | some (.num x) => some x
  | _ => none

/-- pymc_io.py:270-282 -/
noncomputable def fromTruncated (base : String) (inputs : List Input) : Except Err PDist :=
  match bound inputs 1, bound inputs 0 with
  | some lower, some upper =>
    match lookup base .attributeError
        (reparametrize base (((inputs.drop 2).dropLast.dropLast).filterMap Input.number)) with
    | .ok d => .ok (.truncated d (bounds lower upper).1 (bounds lower upper).2)
    | .error e => .error e
  | _, _ => .error .indexError

/-- pymc_io.py:285-298: `base` is the last component -/
noncomputable def fromZeroInflated (weights : List (Option ℝ)) (base : Node) : Except Err PDist :=
  match zeroInflated base.opName weights ((base.inputs.drop 2).filterMap Input.number) with
  | .ok (name, args) => lookup name .attributeError (.ok args)
  | .error e => .error e

/-- pymc_io.py:306-313 -/
noncomputable def fromHurdle (weights : List (Option ℝ)) (base : String) (inputs : List Input) :
    Except Err PDist :=
  match weights.getLast? with
  | none => .error .indexError
  | some psi =>
    match lookup base .attributeError (reparametrize base ((inputs.drop 2).filterMap Input.number)) with
    | .ok d => .ok (.hurdle d psi)
    | .error e => .error e

mutual
/-- `from_pymc` (pymc_io.py:242-332).  An unknown operator is a `NotImplementedError`, which is a
`RuntimeError`. -/
noncomputable def fromPymc : Node → Except Err PDist
  | .plain name inputs => lookup name .runtimeError (fromNode name inputs)
  | .censored base lower upper =>
    match fromPymc base with
    | .ok d => .ok (.censored d (bounds lower upper).1 (bounds lower upper).2)
    | .error e => .error e
  | .truncated base inputs => fromTruncated base inputs
  | .mixture weights comps =>
    match comps.head? with
    | none => .error .indexError
    | some c =>
      if c.opName = "DiracDelta" then fromZeroInflated weights (comps.getLastD c)
      else
        match fromPymcs comps with
        | .ok ds => .ok (.mixture ds weights)
        | .error e => .error e
  | .hurdle weights base inputs => fromHurdle weights base inputs

/-- pymc_io.py:303: the components, in order -/
noncomputable def fromPymcs : List Node → Except Err (List PDist)
  | [] => .ok []
  | c :: cs =>
    match fromPymc c with
    | .ok d =>
      match fromPymcs cs with
      | .ok ds => .ok (d :: ds)
      | .error e => .error e
    | .error e => .error e
end

/-! ## from_prior (pymc_io.py:335-372) -/

/-- a `Prior` of pymc-extras: its name and its keyword arguments.  Numbers are parameters; the base of
Truncated and Censored, the components and the weights of Mixture are the other values. -/
inductive Prior
  | mk (name : String) (numbers : List (String × Option ℝ)) (dist : Option Prior)
    (comps : Option (List Prior)) (w : Option (List (Option ℝ)))

/-- `kwargs.get(key)` -/
def getKw (kw : List (String × Option ℝ)) (key : String) : Option ℝ := (kw.lookup key).join

/-- pymc_io.py:347-354: the base is looked up by name and called with its numbers (a compound base is not
converted: its class is called with the dictionary, which fails) -/
noncomputable def priorBase : Prior → Except Err PDist
  | .mk name numbers none none none =>
    if name ∈ Catalog.allModifiers then .error .typeError
    else lookup name .attributeError (.ok (.named numbers))
  | _ => .error .attributeError

mutual
/-- `from_prior`.  `dist_name.replace("Hurdle", "")` is the removal of the prefix: no name has "Hurdle"
twice. -/
noncomputable def fromPrior : Prior → Except Err PDist
  | .mk name numbers dist comps w =>
    if name = "Truncated" ∨ name = "Censored" then
      match dist with
      | none => .error .keyError
      | some b =>
        match priorBase b with
        | .ok d =>
          let lu := bounds (getKw numbers "lower") (getKw numbers "upper")
          .ok (if name = "Truncated" then .truncated d lu.1 lu.2 else .censored d lu.1 lu.2)
        | .error e => .error e
    else if "Hurdle".toList.isPrefixOf name.toList then
      match lookup (String.ofList (name.toList.drop 6)) .attributeError
          (.ok (.named (numbers.filter fun kv => kv.1 ≠ "psi"))) with
      | .ok d =>
        match numbers.lookup "psi" with
        | none => .error .keyError
        | some psi => .ok (.hurdle d psi)
      | .error e => .error e
    else if name = "Mixture" then
      match comps with
      | none => .error .keyError
      | some cs =>
        match fromPriors cs with
        | .ok ds =>
          match w with
          | none => .error .keyError
          | some w => .ok (.mixture ds w)
        | .error e => .error e
    else lookup name .valueError (.ok (.named numbers))

/-- pymc_io.py:365 -/
noncomputable def fromPriors : List Prior → Except Err (List PDist)
  | [] => .ok []
  | c :: cs =>
    match fromPrior c with
    | .ok d =>
      match fromPriors cs with
      | .ok ds => .ok (d :: ds)
      | .error e => .error e
    | .error e => .error e
end

end Verif.Ppl
