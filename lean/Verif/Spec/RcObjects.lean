import Verif.Model.RcObjects
import Verif.Spec.Rc

/-!
# What it means that settings objects are independent
-/

namespace Verif.Spec
open Verif Verif.Rc Verif.RcObjects

/-- what object `i` holds -/
def contents (w : World) (i : ℕ) : Option Store := (w.handles[i]?).map fun h => w.store h.ref

/-- what context `j` restores -/
def kept (w : World) (j : ℕ) : Option Store := (w.saved[j]?).map w.store

/-- the object an action is meant to change -/
def target : Act → Option ℕ
  | .on i _ | .put i _ _ | .remove i _ => some i
  | .context _ | .exit _ => some 0
  | .findAll _ _ | .copy _ | .enter _ => none

/-- the world after the import: `rcParams` is the only object -/
def imported (s : Store) : World := ⟨fun _ => s, 1, [⟨true, 0⟩], []⟩

end Verif.Spec
