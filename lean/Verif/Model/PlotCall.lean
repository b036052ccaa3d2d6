import Verif.Basics

/-!
# From `plot` and the plotting methods to the functions that draw

distributions/plot.py:4-98, distributions/distributions.py:663-1017 and 1136-1142,
distributions/continuous_multivariate.py:96-371 and 588-863, internal/distribution_helper.py:38-58, the keyword
arguments in internal/plot_helper.py:128-198.  Which function is called with which arguments, and how often; what is
drawn with them is in `Curves` and `PointInterval`.
-/

namespace Verif.PlotCall
open Verif

inductive Kind
  | pdf | cdf | ppf | sf | isf
  deriving DecidableEq

/-- plot.py:70 -/
def Kind.ofString (s : String) : Option Kind :=
  if s = "pdf" then some .pdf else if s = "cdf" then some .cdf else if s = "ppf" then some .ppf
  else if s = "sf" then some .sf else if s = "isf" then some .isf else none

/-- the classes `plot` distinguishes -/
inductive Cls
  | univariate | dirichlet | mvnormal
  deriving DecidableEq

/-- values of arguments: given by the user, the object, a literal, `None`, the dictionary `kwargs`, a default value -/
inductive Val (α : Type)
  | user (a : α)
  | self
  | str (s : String)
  | none
  | dict (l : List (String × α))
  | default

/-- plot.py:75-96: the names that are passed on as keywords (each with the argument of the same name) -/
def mandatory (c : Cls) (k : Kind) : List String :=
  let l := ["moments", "pointinterval", "interval", "levels", "support", "baseline", "legend", "figsize", "ax"]
  let l := if k ≠ .pdf then l.erase "baseline" else l
  let l := if k = .ppf ∨ k = .isf then l.erase "support" else l
  if c ≠ .univariate then
    let l := l.erase "moments"
    if k = .pdf then l ++ ["marginals"] else l
  else l

/-- the parameters of the plotting methods besides `self`: distributions.py:663-675, 745-756, 822-832, 882-893, 959-969;
continuous_multivariate.py:96-107, 161-170, 216-224, 267-276, 322-330 and the same for MvNormal (588-822) -/
def methodParams : Cls → Kind → List String
  | .univariate, .pdf =>
    ["moments", "pointinterval", "interval", "levels", "support", "baseline", "legend", "figsize", "ax"]
  | .univariate, .cdf => ["moments", "pointinterval", "interval", "levels", "support", "legend", "figsize", "ax"]
  | .univariate, .ppf => ["moments", "pointinterval", "interval", "levels", "legend", "figsize", "ax"]
  | .univariate, .sf => ["moments", "pointinterval", "interval", "levels", "support", "legend", "figsize", "ax"]
  | .univariate, .isf => ["moments", "pointinterval", "interval", "levels", "legend", "figsize", "ax"]
  | _, .pdf =>
    ["marginals", "pointinterval", "interval", "levels", "support", "baseline", "legend", "figsize", "ax"]
  | _, .cdf => ["pointinterval", "interval", "levels", "support", "legend", "figsize", "ax"]
  | _, .ppf => ["pointinterval", "interval", "levels", "legend", "figsize", "ax"]
  | _, .sf => ["pointinterval", "interval", "levels", "support", "legend", "figsize", "ax"]
  | _, .isf => ["pointinterval", "interval", "levels", "legend", "figsize", "ax"]

/-- only the univariate methods have `**kwargs` -/
def hasKwargs : Cls → Bool
  | .univariate => true
  | _ => false

/-- an argument in the call of the drawing function -/
inductive Src
  | self
  | param (n : String)
  | str (s : String)
  | none
  | kwargs

def ps (l : List String) : List Src := l.map .param

/-- the drawing function, its parameters (plot_helper.py:128-140, 201, 230, 249, 278; plot_helper_multivariate.py:99-112,
260-273; without `xy_lim`, whose default "auto" is used) and the arguments in the call, by position -/
def drawer : Cls → Kind → String × List String × List Src
  | .univariate, .pdf => ("plot_pdfpmf",
      ["dist", "moments", "pointinterval", "interval", "levels", "support", "baseline", "legend", "figsize", "ax",
        "kwargs"],
      .self :: ps ["moments", "pointinterval", "interval", "levels", "support", "baseline", "legend", "figsize", "ax"] ++
        [.kwargs])
  | .univariate, .cdf => ("plot_cdf",
      ["dist", "moments", "pointinterval", "interval", "levels", "support", "legend", "figsize", "ax", "kwargs"],
      .self :: ps ["moments", "pointinterval", "interval", "levels", "support", "legend", "figsize", "ax"] ++ [.kwargs])
  | .univariate, .ppf => ("plot_ppf",
      ["dist", "moments", "pointinterval", "interval", "levels", "legend", "figsize", "ax", "kwargs"],
      .self :: ps ["moments", "pointinterval", "interval", "levels", "legend", "figsize", "ax"] ++ [.kwargs])
  | .univariate, .sf => ("plot_sf",
      ["dist", "moments", "pointinterval", "interval", "levels", "support", "legend", "figsize", "ax", "kwargs"],
      .self :: ps ["moments", "pointinterval", "interval", "levels", "support", "legend", "figsize", "ax"] ++ [.kwargs])
  | .univariate, .isf => ("plot_isf",
      ["dist", "moments", "pointinterval", "interval", "levels", "legend", "figsize", "ax", "kwargs"],
      .self :: ps ["moments", "pointinterval", "interval", "levels", "legend", "figsize", "ax"] ++ [.kwargs])
  | c, k =>
    (if c = .dirichlet then "plot_dirichlet" else "plot_mvnormal",
      ["dist", "representation", "marginals", "pointinterval", "interval", "levels", "support", "baseline", "legend",
        "figsize", "axes"],
      match k with
      | .pdf => [.self, .str "pdf", .param "marginals", .param "pointinterval", .param "interval", .param "levels",
          .param "support", .param "baseline", .param "legend", .param "figsize", .param "ax"]
      | .cdf => [.self, .str "cdf", .str "marginals", .param "pointinterval", .param "interval", .param "levels",
          .param "support", .none, .param "legend", .param "figsize", .param "ax"]
      | .ppf => [.self, .str "ppf", .str "marginals", .param "pointinterval", .param "interval", .param "levels",
          .none, .none, .param "legend", .param "figsize", .param "ax"]
      | .sf => [.self, .str "sf", .str "marginals", .param "pointinterval", .param "interval", .param "levels",
          .param "support", .none, .param "legend", .param "figsize", .param "ax"]
      | .isf => [.self, .str "isf", .str "marginals", .param "pointinterval", .param "interval", .param "levels",
          .none, .none, .param "legend", .param "figsize", .param "ax"])

variable {α : Type}

/-- a call of a drawing function -/
structure Drawn (α : Type) where
  fn : String
  env : List (String × Val α)

/-- the value of an argument: `given` are the keywords the method was called with, `rest` its `**kwargs` -/
def srcValue (given rest : List (String × α)) : Src → Val α
  | .self => .self
  | .param n => match given.lookup n with
    | some a => .user a
    | none => .default
  | .str s => .str s
  | .none => .none
  | .kwargs => .dict rest

/-- a keyword call of a plotting method: a name that is not a parameter goes to `**kwargs`, if there is one, and is a
TypeError otherwise; a name given twice is a TypeError; parameters not given have their default -/
def callMethod (c : Cls) (k : Kind) (given : List (String × α)) : Except Err (Drawn α) :=
  let params := methodParams c k
  let names := given.map Prod.fst
  if ¬ names.Nodup ∨ "self" ∈ names then .error .typeError
  else if hasKwargs c = false ∧ names.any (fun n => n ∉ params) then .error .typeError
  else
    let rest := given.filter fun p => p.1 ∉ params
    .ok ⟨(drawer c k).1, (drawer c k).2.1.zip ((drawer c k).2.2.map (srcValue given rest))⟩

/-- plot.py:4-98 after the conversion of PyMC variables: `user` are the arguments by name, `extra` the further keywords -/
def plot (c : Cls) (kind : String) (user : String → α) (extra : List (String × α)) : Except Err (Drawn α) :=
  match Kind.ofString kind with
  | none => .error .valueError
  | some k => callMethod c k ((mandatory c k).map (fun n => (n, user n)) ++ extra)

/-! ## Parameters that are arrays -/

/-- a parameter: an `int`, a `float`, an `np.int64`; or an array (other scalars of numpy count as arrays of length one) -/
inductive Par
  | num (v : ℝ)
  | arr (l : List ℝ)

def Par.isNum : Par → Bool
  | .num _ => true
  | .arr _ => false

structure Obj where
  cls : String
  discrete : Bool
  frozen : Bool
  names : List String
  params : List Par

/-- distribution_helper.py:38-58 with `check_frozen=True` -/
def validScalar (o : Obj) (raiseError : Bool) : Except Err Bool :=
  if o.frozen = false then .error .valueError
  else if o.params.all Par.isNum || o.cls = "Categorical" || o.cls = "Mixture" then .ok true
  else if raiseError then .error .valueError
  else .ok false

/-- `np.atleast_1d` -/
def Par.list : Par → List ℝ
  | .num v => [v]
  | .arr l => l

/-- `np.broadcast_arrays` of one-dimensional arrays: the common length -/
def commonLength (ls : List ℕ) : Except Err ℕ :=
  match ls.filter (· ≠ 1) with
  | [] => .ok 1
  | n :: r => if r.all (· = n) then .ok n else .error .valueError

/-- the entry of a broadcast array -/
def Par.entry (p : Par) (j : ℕ) : ℝ := if p.list.length = 1 then p.list.getD 0 0 else p.list.getD j 0

/-- distributions.py:1136-1142: the values of the parameters, by name, of each curve; without parameters `zip()` is
empty -/
def unpack (o : Obj) : Except Err (List (List (String × ℝ))) := do
  let n ← commonLength (o.params.map fun p => p.list.length)
  if o.params = [] then return []
  return (List.range n).map fun j => o.names.zip (o.params.map fun p => p.entry j)

/-- what is drawn of: the object itself or copies with other parameters -/
inductive Curve
  | self
  | copy (params : List (String × ℝ))

/-- distributions.py:699-743 (`raise_error=False`) and 798-820, 858-880, 935-957, 995-1017 -/
def curves (o : Obj) (k : Kind) : Except Err (List Curve) := do
  let scalar ← validScalar o (k ≠ .pdf)
  if scalar then return [.self]
  let l ← unpack o
  return l.map .copy

/-! ## Keyword arguments of `plot_pdf` -/

/-- the style of one curve of a density or mass function: line, marker and the keywords passed on -/
structure Style (α : Type) where
  ls : Option α
  marker : Option α
  rest : List (String × α)

/-- `kwargs.pop(name, default)`; the value (`none` for the default) and the dictionary afterwards -/
def pop (kw : List (String × α)) (name : String) : Option α × List (String × α) :=
  (kw.lookup name, kw.filter fun p => p.1 ≠ name)

/-- plot_helper.py:141-190: one call of `plot_pdfpmf`; the dictionary is shared by all calls of one `plot_pdf`.  Of a
discrete distribution other than Categorical and Bernoulli `ls` and `marker` are taken out; otherwise the keywords are passed
on as they are. -/
def drawOne (o : Obj) (kw : List (String × α)) : Style α × List (String × α) :=
  if o.discrete && !(o.cls = "Categorical" || o.cls = "Bernoulli") then
    let a := pop kw "ls"
    let b := pop a.2 "marker"
    (⟨a.1, b.1, b.2⟩, b.2)
  else (⟨kw.lookup "ls", kw.lookup "marker", kw.filter fun p => p.1 ≠ "ls" ∧ p.1 ≠ "marker"⟩, kw)

/-- the loop of distributions.py:728-743 -/
def drawAll (o : Obj) : List Curve → List (String × α) → List (Style α)
  | [], _ => []
  | _ :: cs, kw => (drawOne o kw).1 :: drawAll o cs (drawOne o kw).2

end Verif.PlotCall
