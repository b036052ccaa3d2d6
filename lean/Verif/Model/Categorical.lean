import Verif.Model.Param
import Verif.Model.Delegate

/-!
# Categorical, and the special functions on the extended reals

distributions/categorical.py:40-123 (methods: 126-189), internal/special.py:72-97 and 101-107.
A float is `Option EReal`, `none` being `nan`.
-/

namespace Verif.Categorical
open Verif

/-- special.py:84-89: `np.exp(-inf)` is 0, comparisons with `nan` are false -/
noncomputable def expit : Option EReal → Option ℝ
  | none => none
  | some ⊥ => some (0 / (1 + 0))
  | some ⊤ => some (1 / (1 + 0))
  | some (x : ℝ) => some (if x ≥ 0 then 1 / (1 + Real.exp (-x)) else Real.exp x / (1 + Real.exp x))

/-- special.py:72-81 -/
noncomputable def logit : Option ℝ → Option EReal
  | none => none
  | some x =>
    if x = 0 then some ⊥
    else if x = 1 then some ⊤
    else if x < 0 ∨ x > 1 then none
    else some ((Real.log (x / (1 - x)) : ℝ) : EReal)

/-- special.py:92-97; the logarithm of a negative number is `nan` -/
noncomputable def xlogx (x : ℝ) : Option ℝ :=
  if x = 0 then some 0 else if x < 0 then none else some (x * Real.log x)

/-- the attributes of a Categorical -/
structure Cat where
  p : Option (List (Option ℝ))
  logitP : Option (List (Option EReal))
  support : Option (ℤ × ℤ)
  /-- `param_names[0]` -/
  name : String
  /-- `params[0]`: of the one or the other kind -/
  params : Option (List (Option ℝ) ⊕ List (Option EReal))
  frozen : Bool

/-- categorical.py:42-44 before `_parametrization` -/
def blank : Cat := ⟨none, none, none, "", none, false⟩

/-- categorical.py:70-80 -/
noncomputable def update (p : List (Option ℝ)) (o : Cat) : Cat :=
  let l := p.map logit
  let o := { o with p := some p, logitP := some l }
  let o := if o.name = "p" then { o with params := some (.inl p) }
    else if o.name = "logit_p" then { o with params := some (.inr l) }
    else o
  { o with frozen := true }

/-- categorical.py:47-62 -/
noncomputable def parametrize (p : Option (List ℝ)) (logitP : Option (List EReal)) (o : Cat) :
    Except Err Cat :=
  match p, logitP with
  | some _, some _ => .error .valueError
  | none, none => .ok { o with name := "p", p := none, logitP := none }
  | some p, none =>
    let o := { o with name := "p", p := some (p.map some), logitP := none }
    .ok (update (p.map some) { o with support := some (0, (p.length : ℤ) - 1) })
  | none, some l =>
    let p := l.map fun x => expit (some x)
    let o := { o with name := "logit_p", p := some p, logitP := some (l.map some) }
    .ok (update p { o with support := some (0, (p.length : ℤ) - 1) })

/-- `Categorical(p, logit_p)`: categorical.py:42-45 -/
noncomputable def construct (p : Option (List ℝ)) (logitP : Option (List EReal)) : Except Err Cat :=
  parametrize p logitP blank

/-- categorical.py:82-120 and 126-188 -/
def rows : List Delegate.Row := [
  ⟨.pdf, [.x], [.own .x, .attr .p], [], [.x, .p], .pdf, [.x, .p], []⟩,
  ⟨.cdf, [.x], [.own .x, .attr .p], [], [.x, .p], .cdf, [.x, .p], []⟩,
  ⟨.ppf, [.q], [.own .q, .attr .p], [], [.q, .p], .ppf, [.q, .p], []⟩,
  ⟨.logpdf, [.x], [.own .x, .attr .p], [], [.x, .p], .logpdf, [.x, .p], []⟩,
  ⟨.entropy, [], [.attr .p], [], [.p], .entropy, [.p], []⟩,
  ⟨.mean, [], [.attr .p], [], [.p], .mean, [.p], []⟩,
  ⟨.mode, [], [.attr .p], [], [.p], .mode, [.p], []⟩,
  ⟨.median, [], [.attr .p], [], [.p], .median, [.p], []⟩,
  ⟨.var, [], [.attr .p], [], [.p], .var, [.p], []⟩,
  ⟨.std, [], [.attr .p], [], [.p], .std, [.p], []⟩,
  ⟨.skewness, [], [.attr .p], [], [.p], .skewness, [.p], []⟩,
  ⟨.kurtosis, [], [.attr .p], [], [.p], .kurtosis, [.p], []⟩,
  ⟨.rvs, [.size, .random_state], [.attr .p], [(.size, .own .size), (.rng, .own .random_state)],
    [.p, .size, .rng], .rvs, [.p], [(.size, .size), (.random_state, .rng)]⟩]

end Verif.Categorical
