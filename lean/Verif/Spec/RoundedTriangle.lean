import Mathlib.Data.Real.Basic

/-!
# The size of the terms of a determinant
-/

namespace Mathter

/-- The sum of the absolute values of the six terms of the determinant of three vectors. -/
def absDet3 (a b c : Fin 3 → ℝ) : ℝ :=
  |a 0| * (|b 1| * |c 2| + |b 2| * |c 1|) + |a 1| * (|b 2| * |c 0| + |b 0| * |c 2|) + |a 2| * (|b 0| * |c 1| + |b 1| * |c 0|)

end Mathter
