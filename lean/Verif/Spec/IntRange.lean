import Verif.Model.MachineInt

/-!
# Ranges of integer types (specification side)
-/

namespace Mathter

/-- `x` is a value of the integer type with these numbers of bits and signedness. -/
def InRange (t : IntTy) (x : ℤ) : Prop :=
  if t.signed then -2 ^ (t.bits - 1) ≤ x ∧ x < 2 ^ (t.bits - 1) else 0 ≤ x ∧ x < 2 ^ t.bits

end Mathter
