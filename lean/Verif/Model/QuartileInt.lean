import Verif.Model.Modifier

/-!
# `QuartileInt` and its choice among families
(unidimensional/quartile_int.py:50-221, internal/optimization.py:382-386, 453-485)

Distribution objects are abstract: `D` is their type.  The methods called on them are parameters: `_parametrization` with the
extra parameters, `_check_endpoints`, and the fit (`_fit_moments` followed by `optimize_quartile`), which may raise errors.
Objects are fresh in every call (`get_distributions`), so nothing is shared between fits.
-/

namespace Verif.QuartileInt
open Verif Verif.Modifier

/-- extra parameters: per family name the given values -/
abbrev Extra := List (String × List (String × ℝ))

structure Methods (D : Type) where
  name : D → String
  parametrize : D → List (String × ℝ) → Except Err D
  setBounds : D → ℝ → ℝ → D
  inSupport : D → ℝ → ℝ → Bool
  fit : D → ℝ → ℝ → ℝ → Except Err D
  law : D → Base

variable {D : Type}

/-- optimization.py:382-386 with `required_mass=0.5` -/
noncomputable def relError (m : Methods D) (d : D) (lower upper : ℝ) : ℝ :=
  let lower := if (m.law d).discrete then lower - 1 else lower
  |((m.law d).cdf (upper : EReal) - (m.law d).cdf (lower : EReal) - 0.5) / 0.5 * 100|

/-- optimization.py:458-465, 481-485: the values fixed by the user -/
def prepare (m : Methods D) (extra : Extra) (d : D) : Except Err D :=
  match extra.lookup (m.name d) with
  | none => .ok d
  | some kw => do
    let d' ← m.parametrize d kw
    if m.name d = "BetaScaled" then
      match kw.lookup "lower", kw.lookup "upper" with
      | some l, some u => .ok (m.setBounds d' l u)
      | _, _ => .error .keyError
    else .ok d'

/-- optimization.py:453-478, the loop with the best result so far and its error (`none` is infinity) -/
noncomputable def loop (m : Methods D) (q1 q2 q3 : ℝ) (extra : Extra) :
    List D → Option (D × ℝ) → Except Err (Option (D × ℝ))
  | [], best => .ok best
  | d :: ds, best => do
    let d ← prepare m extra d
    if m.inSupport d q1 q3 then
      let f ← m.fit d q1 q2 q3
      let e := relError m f q1 q3
      match best with
      | none => loop m q1 q2 q3 extra ds (some (f, e))
      | some (_, e') => loop m q1 q2 q3 extra ds (if e < e' then some (f, e) else best)
    else loop m q1 q2 q3 extra ds best

noncomputable def fitToQuartile (m : Methods D) (selected : List D) (q1 q2 q3 : ℝ) (extra : Extra) :
    Except Err (Option D) := do
  let best ← loop m q1 q2 q3 extra selected none
  return best.map Prod.fst

/-! ## the widget -/

inductive Panel (D : Type)
  | empty
  | domainError
  | wrongOrder
  | curve (d : D) (repr : String)

structure State (D : Type) where
  q1 : ℝ
  q2 : ℝ
  q3 : ℝ
  extra : String
  repr : String
  selected : List String
  dist : Option D
  panel : Panel D

/-- what the widget calls: `get_distributions`, `process_extra` -/
structure Env (D : Type) where
  methods : Methods D
  instances : List String → List D
  process : String → Extra

/-- quartile_int.py:187-211 -/
noncomputable def matchDist (env : Env D) (s : State D) : State D :=
  if s.q1 < s.q2 ∧ s.q2 < s.q3 then
    match fitToQuartile env.methods (env.instances s.selected) s.q1 s.q2 s.q3 (env.process s.extra) with
    | .error _ => { s with panel := .empty }
    | .ok none => { s with panel := .domainError, dist := none }
    | .ok (some d) => { s with panel := .curve d s.repr, dist := some d }
  else { s with panel := .wrongOrder, dist := none }

inductive Action
  /-- release a mouse button over the figure -/
  | release
  | setQ1 (v : ℝ)
  | setQ2 (v : ℝ)
  | setQ3 (v : ℝ)
  | setRepr (r : String)
  | setExtra (t : String)
  | choose (names : List String)

/-- quartile_int.py:68-71, 213-221: the box with the extra parameters has no observer -/
noncomputable def act (env : Env D) (s : State D) : Action → State D
  | .release => matchDist env s
  | .setQ1 v => if v = s.q1 then s else matchDist env { s with q1 := v }
  | .setQ2 v => if v = s.q2 then s else matchDist env { s with q2 := v }
  | .setQ3 v => if v = s.q3 then s else matchDist env { s with q3 := v }
  | .setRepr r => if r = s.repr then s else matchDist env { s with repr := r }
  | .setExtra t => { s with extra := t }
  | .choose n => if n = s.selected then s else matchDist env { s with selected := n }

noncomputable def acts (env : Env D) (s : State D) (l : List Action) : State D := l.foldl (act env) s

/-- quartile_int.py:50-73: opening the widget fits at once; an error in this fit would be raised by the constructor -/
noncomputable def openWidget (env : Env D) (q1 q2 q3 : ℝ) (names : List String) : State D :=
  matchDist env ⟨q1, q2, q3, "", "pdf", names, none, .empty⟩

end Verif.QuartileInt
