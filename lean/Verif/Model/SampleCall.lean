import Verif.Model.Sample
import Verif.Model.Param

/-!
# Calling `rvs` with and without a size

preliz/distributions/*.py, signatures of `rvs`, and the nesting of Truncated, Censored, Hurdle and
Mixture.  The generators of `pytensor_distributions` are assumed to return an array of the requested
shape, a scalar for `size=None`.
-/

namespace Verif.SampleCall
open Verif Verif.Sample

/-- a univariate distribution: a family, Categorical, or one of the classes that wrap others -/
inductive Dist
  | family (f : Param.Family)
  | categorical
  | truncated (d : Dist)
  | censored (d : Dist)
  | hurdle (d : Dist)
  | mixture (ds : List Dist)

/-- the default of the parameter `size` of `rvs`: rice.py:151 has `size=1`, all others `size=None`
(for instance normal.py:172, censored.py:169, mixture.py:136, truncated.py:120, hurdle.py:109) -/
def defaultSize : Dist → Size
  | .family .rice => .int 1
  | _ => .none

/-- the shape of `d.rvs(size)`: rice.py:151-153 and alike; truncated.py:120-122, hurdle.py:109-111,
censored.py:169-170 (asks the wrapped distribution for the same size), mixture.py:136-144 (asks the
components for whole numbers of values, see `Sample.mixShape`) -/
def sampleShape : Dist → Size → Except Err (List ℕ)
  | .family _, s => .ok (shape s)
  | .categorical, s => .ok (shape s)
  | .truncated _, s => inverseShape s
  | .hurdle _, s => inverseShape s
  | .censored d, s => censShape (sampleShape d) s
  | .mixture _, s => mixShape s

/-- `d.rvs()` for `none` and `d.rvs(size)` for `some size` -/
def rvs (d : Dist) (arg : Option Size) : Except Err (List ℕ) :=
  sampleShape d (arg.getD (defaultSize d))

end Verif.SampleCall
