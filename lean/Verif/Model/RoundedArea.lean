import Verif.Model.Geometry
import Verif.Model.RoundedQR

/-!
# Rounded evaluation of `Triangle::Area` and `Triangle::Centroid`

`include/Mathter/Geometry/Triangle.hpp` with a rounding `fl` after every operation. `fl` has no overflow or underflow. `len` is `LengthPrecise`.
-/

namespace Mathter.Fl
variable {n : ℕ}

open Classical in
/-- `Triangle::Area` — Triangle.hpp:38-44. `none` is the NaN that `std::sqrt` returns for a negative number. Contracting `T(0.5) * (…)` with the subtractions
of the sides changes nothing, because halving is exact. -/
noncomputable def triangleArea (fl : ℝ → ℝ) (len : (Fin n → ℝ) → ℝ) (tr : GTriangle n) : Option ℝ :=
  let l0 := len fun i => fl (tr.a i - tr.b i)
  let l1 := len fun i => fl (tr.a i - tr.c i)
  let l2 := len fun i => fl (tr.b i - tr.c i)
  let s := fl (1 / 2 * fl (fl (l0 + l1) + l2))
  let q := fl (fl (fl (s * fl (s - l0)) * fl (s - l1)) * fl (s - l2))
  if q < 0 then none else some (fl (Real.sqrt q))

/-- `Triangle::Centroid` — Triangle.hpp:48-50. -/
noncomputable def triangleCentroid (fl : ℝ → ℝ) (tr : GTriangle n) : Fin n → ℝ :=
  fun i => fl (fl (fl (tr.a i + tr.b i) + tr.c i) / 3)

end Mathter.Fl
