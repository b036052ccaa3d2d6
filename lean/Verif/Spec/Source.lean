import Mathlib.Data.List.SplitOn

/-!
# The source of a model function
-/

namespace Verif.Spec

/-- a text without its comments: of every line, the part before its first `#` -/
def withoutComments (src : List Char) : List Char :=
  ['\n'].intercalate ((src.splitOn '\n').map fun line => line.takeWhile (· ≠ '#'))

end Verif.Spec
