import Verif.Model.Geometry
import Verif.Model.RoundedSVD
import Verif.Model.RoundedLinear

/-!
# Rounded evaluation of geometry

`BezierCurve::PointAt`, `LineSegment::Interpol`, `Line::PointAt`, `Hyperplane::Base`, `Hyperplane::Distance` and the intersection of a line with a
hyperplane (`include/Mathter/Geometry`), with a rounding `fl` after every operation. `fl` has no overflow or underflow. `ps` is `a * b + c * d` and
`madd` is `a * b + c` of floats, which the compiler may contract. `dot` is `Dot`.
-/

namespace Mathter.Fl
variable {n : ℕ}

/-- `Dot` (Vector/Math.hpp:176-180) of `n` elements with the relative error `(1 + u) ^ n - 1` of the sum of the absolute products; `Fl.dot` has it. -/
def IsDot (u : ℝ) (n : ℕ) (dot : (Fin n → ℝ) → (Fin n → ℝ) → ℝ) : Prop :=
  ∀ x y, |dot x y - ∑ i, x i * y i| ≤ ((1 + u) ^ n - 1) * ∑ i, |x i * y i|

/-- `BezierCurve::PointAt` — BezierCurve.hpp:60-73, see `bezierPointAt`. -/
noncomputable def bezierPointAt (fl : ℝ → ℝ) (ps : ℝ → ℝ → ℝ → ℝ → ℝ) {order : ℕ} (controlPoints : Fin (order + 1) → Fin n → ℝ) (t : ℝ) :
    Fin n → ℝ :=
  let u := fl (1 - t)
  (forDown order (fun i reduction => forUp (i.val + 1) 0 (fun j reduction =>
    fun q => if q.val = j.val then fun e => ps u (reduction ⟨j.val, by omega⟩ e) t (reduction ⟨j.val + 1, by omega⟩ e) else reduction q) reduction)
    controlPoints) 0

/-- `LineSegment::Interpol` — LineSegment.hpp:56-58. -/
noncomputable def interpol (fl : ℝ → ℝ) (ps : ℝ → ℝ → ℝ → ℝ → ℝ) (s : GSegment n) (t : ℝ) : Fin n → ℝ :=
  fun e => ps t (s.point2 e) (fl (1 - t)) (s.point1 e)

/-- `Line::PointAt` — Line.hpp:55-57. -/
def pointAt (madd : ℝ → ℝ → ℝ → ℝ) (l : GLine n) (param : ℝ) : Fin n → ℝ := fun e => madd param (l.direction e) (l.base e)

/-- `Hyperplane::Distance` — Hyperplane.hpp:65-67. -/
def planeDistance (fl : ℝ → ℝ) (dot : (Fin n → ℝ) → (Fin n → ℝ) → ℝ) (p : GPlane n) (point : Fin n → ℝ) : ℝ := fl (dot point p.normal - p.scalar)

/-- `Hyperplane::Base` — Hyperplane.hpp:60-62. -/
def planeBase (fl : ℝ → ℝ) (p : GPlane n) : Fin n → ℝ := fun e => fl (p.normal e * p.scalar)

open Classical in
/-- `impl::IntersectHyperplaneLine` — Intersection.hpp:24-41. -/
noncomputable def planeLineParam (fl : ℝ → ℝ) (dot : (Fin n → ℝ) → (Fin n → ℝ) → ℝ) (plane : GPlane n) (line : GLine n) : Option ℝ :=
  let bp := planeBase fl plane
  let bpMinusBl : Fin n → ℝ := fun e => fl (bp e - line.base e)
  let nDotD := dot plane.normal line.direction
  if nDotD = 0 then none else some (fl (dot plane.normal bpMinusBl / nDotD))

/-- `Intersect(Hyperplane, Line)` — Intersection.hpp:79-90 (and 95-99). -/
noncomputable def intersectPlaneLine (fl : ℝ → ℝ) (madd : ℝ → ℝ → ℝ → ℝ) (dot : (Fin n → ℝ) → (Fin n → ℝ) → ℝ) (plane : GPlane n) (line : GLine n) :
    Option (Fin n → ℝ) :=
  (planeLineParam fl dot plane line).map (pointAt madd line)

end Mathter.Fl
