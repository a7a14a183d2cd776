import Mathlib.Data.List.Basic

namespace Modred

/-- `((x1 + x2) + x3) + ...`; nothing for the empty list. -/
def leftSum {V : Type*} [Add V] : List V → Option V
  | [] => none
  | x :: xs => some (xs.foldl (· + ·) x)

end Modred
