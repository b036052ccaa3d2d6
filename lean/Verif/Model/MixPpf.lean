import Verif.Model.Interval
import Verif.Model.GridMoments

/-!
# Quantiles of mixtures: mixture.py:87-88, 112-113 and optimization.py:587-625

`Verif.Interval.findPpf` is one pass of the loop of `find_ppf`; here is the loop over the levels with the array the
results are stored in.  Calls that do not end (the two `while` loops of `_ppf_single`) have no outcome, so a call is a
relation between its arguments and its outcome.
-/

namespace Verif.MixPpf
open Verif Verif.Modifier Verif.Interval Verif.GridMoments

/-- the element type of an array of levels: `np.zeros_like(q)` (optimization.py:589) has the one of `q` -/
inductive DType
  | int
  | float
  deriving DecidableEq

/-- assignment `ppf[idx] = v` into an array of the element type: integers refuse NaN (ValueError) and infinities
(OverflowError) and cut a number towards zero -/
noncomputable def store (t : DType) (v : Option EReal) : Except Err (Option EReal) :=
  match t with
  | .float => .ok v
  | .int =>
    match v with
    | none => .error .valueError
    | some e =>
      if e = ⊤ ∨ e = ⊥ then .error .overflow
      else .ok (some ((((if 0 ≤ e.toReal then ⌊e.toReal⌋ else ⌈e.toReal⌉ : ℤ) : ℝ)) : EReal))

/-- the level `q` for a mixture: mixture.py:67-70 and 88, with one pass of the loop at optimization.py:591-606 -/
def level (solve : (ℝ → ℝ) → ℝ → ℝ → ℝ) (bs : List Base) (ws : List ℝ) (lo hi : EReal) (q : ℝ)
    (r : Except Err (Option EReal)) : Prop :=
  findPpf solve (mixCdf bs ws) (bs.all Base.discrete) false lo hi q r

/-- optimization.py:591-606: the levels in turn; the first exception ends the loop -/
def levels (solve : (ℝ → ℝ) → ℝ → ℝ → ℝ) (bs : List Base) (ws : List ℝ) (lo hi : EReal) (t : DType) :
    List ℝ → Except Err (List (Option EReal)) → Prop
  | [], r => r = .ok []
  | q :: qs, r => ∃ v, level solve bs ws lo hi q v ∧
    match v.bind (store t) with
    | .error e => r = .error e
    | .ok y => ∃ ys, levels solve bs ws lo hi t qs ys ∧ r = ys.map (y :: ·)

/-- what `ppf` returns: a number or an array -/
inductive Out
  | number (v : Option EReal)
  | array (vs : List (Option EReal))

/-- optimization.py:607 -/
def pack : List (Option EReal) → Out
  | [v] => .number v
  | vs => .array vs

/-- mixture.py:87-88: `qs` are the entries of `np.atleast_1d(q)` and `t` their type -/
def ppf (solve : (ℝ → ℝ) → ℝ → ℝ → ℝ) (bs : List Base) (ws : List ℝ) (t : DType) (qs : List ℝ) (r : Except Err Out) :
    Prop :=
  match mixSupport bs with
  | .error e => r = .error e
  | .ok (lo, hi) => ∃ s, levels solve bs ws lo hi t qs s ∧ r = s.map pack

/-- mixture.py:112-113 -/
def median (solve : (ℝ → ℝ) → ℝ → ℝ → ℝ) (bs : List Base) (ws : List ℝ) (r : Except Err Out) : Prop :=
  ppf solve bs ws .float [0.5] r

/-- distributions.py:296-304 for a mixture -/
def isf (solve : (ℝ → ℝ) → ℝ → ℝ → ℝ) (bs : List Base) (ws : List ℝ) (t : DType) (qs : List ℝ) (r : Except Err Out) :
    Prop :=
  ppf solve bs ws t (qs.map (1 - ·)) r

end Verif.MixPpf
