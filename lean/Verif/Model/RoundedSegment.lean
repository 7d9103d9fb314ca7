import Verif.Model.RoundedGram
import Verif.Model.RoundedGeometry

/-!
# Rounded evaluation of lines and segments through points and of their intersections in the plane

`Line::Through`, the functions of `LineSegment` and the intersections of two lines and of two segments (`include/Mathter/Geometry`), with a rounding `fl`
after every operation. `fl` has no overflow or underflow. `madd` is `a * b + c` of floats, which the compiler may contract. `dot` is `Dot`, `norm` is
`NormalizePrecise`, `len` is `Length` or `LengthPrecise`. Both operands have the same element type.
-/

namespace Mathter.Fl
variable {n : ℕ}

/-- `Line::Through` — Line.hpp:40-42. -/
def through (fl : ℝ → ℝ) (norm : (Fin n → ℝ) → Fin n → ℝ) (point1 point2 : Fin n → ℝ) : GLine n := ⟨norm fun i => fl (point2 i - point1 i), point1⟩

/-- `LineSegment::Length` — LineSegment.hpp:36-38. -/
def segLength (fl : ℝ → ℝ) (len : (Fin n → ℝ) → ℝ) (s : GSegment n) : ℝ := len fun i => fl (s.point2 i - s.point1 i)

/-- `LineSegment::Direction` — LineSegment.hpp:41-43. -/
def segDirection (fl : ℝ → ℝ) (norm : (Fin n → ℝ) → Fin n → ℝ) (s : GSegment n) : Fin n → ℝ := norm fun i => fl (s.point2 i - s.point1 i)

/-- `LineSegment::Line` — LineSegment.hpp:71-73. -/
def segLine (fl : ℝ → ℝ) (norm : (Fin n → ℝ) → Fin n → ℝ) (s : GSegment n) : GLine n := ⟨segDirection fl norm s, s.point1⟩

open Classical in
/-- `LineSegment::InterpolOf` — LineSegment.hpp:63-68; `none` is the division by zero. -/
noncomputable def interpolOf (fl : ℝ → ℝ) (dot : (Fin n → ℝ) → (Fin n → ℝ) → ℝ) (len : (Fin n → ℝ) → ℝ) (s : GSegment n) (point : Fin n → ℝ) : Option ℝ :=
  let offset : Fin n → ℝ := fun i => fl (point i - s.point1 i)
  let direction : Fin n → ℝ := fun i => fl (s.point2 i - s.point1 i)
  let length := len direction
  if length = 0 then none else some (fl (dot offset (fun i => fl (direction i / length)) / length))

/-- The constructor of `Hyperplane` from a line — Hyperplane.hpp:38-41. The negation in `Cross` is exact. -/
def planeOfLine (dot : (Fin 2 → ℝ) → (Fin 2 → ℝ) → ℝ) (line : GLine 2) : GPlane 2 := ⟨cross2 line.direction, dot (cross2 line.direction) line.base⟩

/-- `Intersect(Line<2>, Line<2>)` — Intersection.hpp:162-166. -/
noncomputable def intersectLineLine (fl : ℝ → ℝ) (madd : ℝ → ℝ → ℝ → ℝ) (dot : (Fin 2 → ℝ) → (Fin 2 → ℝ) → ℝ) (lhs rhs : GLine 2) : Option (Fin 2 → ℝ) :=
  intersectPlaneLine fl madd dot (planeOfLine dot lhs) rhs

open Classical in
/-- `Intersect(Hyperplane, Ray)` — Intersection.hpp:135-144 (and 149-153). -/
noncomputable def intersectPlaneRay (fl : ℝ → ℝ) (madd : ℝ → ℝ → ℝ → ℝ) (dot : (Fin n → ℝ) → (Fin n → ℝ) → ℝ) (plane : GPlane n) (ray : GLine n) :
    Option (Fin n → ℝ) :=
  match planeLineParam fl dot plane ray with
  | none => none
  | some t => if 0 ≤ t then some (pointAt madd ray t) else none

/-- `Intersect(Hyperplane, LineSegment)` — Intersection.hpp:108-117 (and 122-126), with `Distance` of Vector/Math.hpp:216-220. -/
noncomputable def intersectPlaneSegment (fl : ℝ → ℝ) (madd : ℝ → ℝ → ℝ → ℝ) (dot : (Fin n → ℝ) → (Fin n → ℝ) → ℝ) (norm : (Fin n → ℝ) → Fin n → ℝ)
    (len : (Fin n → ℝ) → ℝ) (plane : GPlane n) (seg : GSegment n) : Option (Fin n → ℝ) :=
  match planeLineParam fl dot plane (segLine fl norm seg) with
  | none => none
  | some t => if 0 ≤ t ∧ t < len (fun i => fl (seg.point1 i - seg.point2 i)) then some (pointAt madd (segLine fl norm seg) t) else none

/-- `impl::IsWithin(LineSegment, Vector)` — Intersection.hpp:45-55. The product with plus or minus one is exact. -/
noncomputable def isWithin (fl : ℝ → ℝ) (neg : Bool) (seg : GSegment (n + 1)) (point : Fin (n + 1) → ℝ) : Prop :=
  let end' : Fin (n + 1) → ℝ := fun i => fl (seg.point2 i - seg.point1 i)
  let absEnd := fun i => |end' i|
  let offset : Fin (n + 1) → ℝ := fun i => fl (point i - seg.point1 i)
  let axisIdx := maxElementPos absEnd
  let limit := end' axisIdx
  let coord := copysign1 neg limit * offset axisIdx
  0 ≤ coord ∧ coord ≤ |limit|

open Classical in
/-- `Intersect(LineSegment<2>, LineSegment<2>)` — Intersection.hpp:175-183. -/
noncomputable def intersectSegmentSegment (fl : ℝ → ℝ) (madd : ℝ → ℝ → ℝ → ℝ) (dot : (Fin 2 → ℝ) → (Fin 2 → ℝ) → ℝ) (norm : (Fin 2 → ℝ) → Fin 2 → ℝ)
    (neg1 neg2 : Bool) (lhs rhs : GSegment 2) : Option (Fin 2 → ℝ) :=
  match intersectLineLine fl madd dot (segLine fl norm lhs) (segLine fl norm rhs) with
  | none => none
  | some p => if isWithin fl neg1 lhs p ∧ isWithin fl neg2 rhs p then some p else none

end Mathter.Fl
