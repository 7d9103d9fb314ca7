import Mathlib.Analysis.Quaternion
import Verif.Model.Quaternion

/-! The mathematical quaternion meant by a stored one, as an element of Mathlib's `ℍ[K]`. -/

namespace Mathter
open scoped Quaternion
universe u

/-- The quaternion `s + i·i + j·j + k·k` read through the members `s`, `i`, `j`, `k` (Quaternion/Quaternion.hpp:42-45). -/
def Quat.toH {K : Type u} [CommRing K] {l : QLayout} (q : Quat K l) : ℍ[K] := ⟨q.s, q.i, q.j, q.k⟩

end Mathter
