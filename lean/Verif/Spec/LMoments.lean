import Verif.Model.LMoments

/-!
# What the letters stand for, as documented (C128)
-/

namespace Verif.Spec
open Verif.Delegate

/-- distributions.py:360-367: the letters of `moments` -/
def momentNamed : List (Char × Meth) :=
  [('m', .mean), ('v', .var), ('d', .std), ('s', .skewness), ('k', .kurtosis)]

/-- distributions.py:393-401: the digits of `lmoments` -/
def lmomentNamed : List (Char × Meth) :=
  [('1', .lmoment1), ('2', .lmoment2), ('3', .lmoment3), ('4', .lmoment4)]

end Verif.Spec
