import Verif.Model.Loop
import Verif.Model.VectorMath

/-!
# Geometry

Models `include/Mathter/Geometry/*.hpp` at element level over `ℝ`, in exact arithmetic (Bézier curves over any commutative ring). The debug
assertions of the constructors (directions and normals have unit length up to a tolerance) are not modelled; theorems that need unit
length say so. Conversions between scalar types (`Line<T>(line)`) are the identity here.
-/

namespace Mathter
universe u
variable {n : ℕ}

/-! ## Bézier curves -/

/-- `BezierCurve::PointAt` — BezierCurve.hpp:60-73, for `Order = order`. The outer loop runs `i = Order, …, 1` (here `i + 1`), the inner one
`j = 1, …, i` (here `j + 1`), updating `reduction` in place. -/
def bezierPointAt {K : Type u} [CommRing K] {order : ℕ} (controlPoints : Fin (order + 1) → Fin n → K) (t : K) : Fin n → K :=
  let u := 1 - t
  (forDown order (fun i reduction => forUp (i.val + 1) 0 (fun j reduction =>
    fun q => if q.val = j.val then u • reduction ⟨j.val, by omega⟩ + t • reduction ⟨j.val + 1, by omega⟩ else reduction q) reduction)
    controlPoints) 0

/-! ## Lines, rays, segments, hyperplanes -/

/-- `Line` — Line.hpp:16-61; `Ray` (Ray.hpp:15-36) has the same members and functions. -/
structure GLine (n : ℕ) where
  direction : Fin n → ℝ
  base : Fin n → ℝ

/-- `Line::PointAt` — Line.hpp:55-57. -/
def GLine.pointAt (l : GLine n) (param : ℝ) : Fin n → ℝ := l.base + param • l.direction

/-- `Line::Through` — Line.hpp:40-42. -/
noncomputable def GLine.through (point1 point2 : Fin (n + 1) → ℝ) : GLine (n + 1) := ⟨normalizePrecise1 (point2 - point1), point1⟩

/-- `LineSegment` — LineSegment.hpp:15-78. -/
structure GSegment (n : ℕ) where
  point1 : Fin n → ℝ
  point2 : Fin n → ℝ

/-- The constructor from start, direction and length — LineSegment.hpp:28-29. -/
def GSegment.ofDirection (base direction : Fin n → ℝ) (length : ℝ) : GSegment n := ⟨base, base + length • direction⟩

/-- `LineSegment::Length` — LineSegment.hpp:36-38. -/
noncomputable def GSegment.len (s : GSegment n) : ℝ := length (s.point2 - s.point1)

/-- `LineSegment::Direction` — LineSegment.hpp:41-43. -/
noncomputable def GSegment.direction (s : GSegment (n + 1)) : Fin (n + 1) → ℝ := normalizePrecise1 (s.point2 - s.point1)

/-- `LineSegment::Interpol` — LineSegment.hpp:56-58. -/
def GSegment.interpol (s : GSegment n) (t : ℝ) : Fin n → ℝ := t • s.point2 + (1 - t) • s.point1

open Classical in
/-- `LineSegment::InterpolOf` — LineSegment.hpp:63-68; `none` is the division by zero for a degenerate segment. -/
noncomputable def GSegment.interpolOf (lo hi : ℝ) (s : GSegment (n + 1)) (point : Fin (n + 1) → ℝ) : Option ℝ :=
  let offset := point - s.point1
  let direction := s.point2 - s.point1
  let length := lengthPrecise lo hi direction
  if length = 0 then none else some (dot offset (divReal direction length) / length)

/-- `LineSegment::Line` — LineSegment.hpp:71-73. -/
noncomputable def GSegment.line (s : GSegment (n + 1)) : GLine (n + 1) := ⟨s.direction, s.point1⟩

/-- `Hyperplane` — Hyperplane.hpp:15-72. -/
structure GPlane (n : ℕ) where
  normal : Fin n → ℝ
  scalar : ℝ

/-- The constructor from a point and a normal vector — Hyperplane.hpp:28-30. -/
noncomputable def GPlane.ofBase (base normal : Fin n → ℝ) : GPlane n := ⟨normal, dot normal base⟩

/-- `Cross` of one two-dimensional vector — Vector/Math.hpp:364-369, see `cross`. -/
def cross2 (v : Fin 2 → ℝ) : Fin 2 → ℝ := ![-v 1, v 0]

/-- The constructor from a line — Hyperplane.hpp:38-41. -/
noncomputable def GPlane.ofLine (line : GLine 2) : GPlane 2 := ⟨cross2 line.direction, dot (cross2 line.direction) line.base⟩

/-- `Hyperplane::Base` — Hyperplane.hpp:60-62. -/
def GPlane.base (p : GPlane n) : Fin n → ℝ := p.scalar • p.normal

/-- The conversion to a line — Hyperplane.hpp:44-47. -/
def GPlane.toLine (p : GPlane 2) : GLine 2 := ⟨cross2 p.normal, p.base⟩

/-- `Hyperplane::Distance` — Hyperplane.hpp:65-67. -/
noncomputable def GPlane.distance (p : GPlane n) (point : Fin n → ℝ) : ℝ := dot point p.normal - p.scalar

/-! ## Triangles -/

/-- `Triangle` — Triangle.hpp:17-54. -/
structure GTriangle (n : ℕ) where
  a : Fin n → ℝ
  b : Fin n → ℝ
  c : Fin n → ℝ

/-- `Triangle::Area` — Triangle.hpp:38-44. -/
noncomputable def GTriangle.area (lo hi : ℝ) (tr : GTriangle (n + 1)) : ℝ :=
  let l0 := lengthPrecise lo hi (tr.a - tr.b)
  let l1 := lengthPrecise lo hi (tr.a - tr.c)
  let l2 := lengthPrecise lo hi (tr.b - tr.c)
  let s := 1 / 2 * (l0 + l1 + l2)
  Real.sqrt (s * (s - l0) * (s - l1) * (s - l2))

/-- `Triangle::Centroid` — Triangle.hpp:48-50. -/
noncomputable def GTriangle.centroid (tr : GTriangle n) : Fin n → ℝ := divReal (tr.a + tr.b + tr.c) 3

/-! ## Intersections -/

open Classical in
/-- `impl::IntersectHyperplaneLine` — Intersection.hpp:24-41. -/
noncomputable def planeLineParam (plane : GPlane n) (line : GLine n) : Option ℝ :=
  let bpMinusBl := plane.base - line.base
  let nDotD := dot plane.normal line.direction
  if nDotD = 0 then none else some (dot plane.normal bpMinusBl / nDotD)

/-- `Intersect(Hyperplane, Line)` — Intersection.hpp:79-90; the overload with exchanged arguments (95-99) calls it. -/
noncomputable def intersectPlaneLine (plane : GPlane n) (line : GLine n) : Option (Fin n → ℝ) :=
  (planeLineParam plane line).map line.pointAt

/-- `Intersect(Hyperplane, LineSegment)` — Intersection.hpp:108-117 (and 122-126). Comparing an empty `std::optional` with `0 <=` is false. -/
noncomputable def intersectPlaneSegment (plane : GPlane (n + 1)) (seg : GSegment (n + 1)) : Option (Fin (n + 1) → ℝ) :=
  match planeLineParam plane seg.line with
  | none => none
  | some t => if 0 ≤ t ∧ t < distance seg.point1 seg.point2 then some (seg.line.pointAt t) else none

/-- `Intersect(Hyperplane, Ray)` — Intersection.hpp:135-144 (and 149-153). -/
noncomputable def intersectPlaneRay (plane : GPlane n) (ray : GLine n) : Option (Fin n → ℝ) :=
  match planeLineParam plane ray with
  | none => none
  | some t => if 0 ≤ t then some (ray.pointAt t) else none

/-- `Intersect(Line<2>, Line<2>)` — Intersection.hpp:162-166. -/
noncomputable def intersectLineLine (lhs rhs : GLine 2) : Option (Fin 2 → ℝ) := intersectPlaneLine (GPlane.ofLine lhs) rhs

/-- `std::max_element(v.begin(), v.end()) - v.begin()`: the first index of a largest element. (used in Geometry/Intersection.hpp:51, 64.) -/
noncomputable def maxElementPos (v : Fin (n + 1) → ℝ) : Fin (n + 1) :=
  forUp (n + 1) 1 (fun i best => if v best < v i then i else best) 0

/-- `std::copysign(1, x)`; `neg` tells whether a zero `x` is the negative zero. (used in Geometry/Intersection.hpp:53, 66.) -/
noncomputable def copysign1 (neg : Bool) (x : ℝ) : ℝ := if x < 0 ∨ (x = 0 ∧ neg = true) then -1 else 1

/-- `impl::IsWithin(LineSegment, Vector)` — Intersection.hpp:45-55. -/
noncomputable def isWithin (neg : Bool) (seg : GSegment (n + 1)) (point : Fin (n + 1) → ℝ) : Prop :=
  let end' := seg.point2 - seg.point1
  let absEnd := fun i => |end' i|
  let offset := point - seg.point1
  let axisIdx := maxElementPos absEnd
  let limit := end' axisIdx
  let coord := copysign1 neg limit * offset axisIdx
  0 ≤ coord ∧ coord ≤ |limit|

/-- `impl::IsWithin(Ray, Vector)` — Intersection.hpp:59-68. -/
noncomputable def isWithinRay (neg : Bool) (ray : GLine (n + 1)) (point : Fin (n + 1) → ℝ) : Prop :=
  let absDir := fun i => |ray.direction i|
  let offset := point - ray.base
  let axisIdx := maxElementPos absDir
  let limit := ray.direction axisIdx
  let coord := copysign1 neg limit * offset axisIdx
  0 ≤ coord

open Classical in
/-- `Intersect(LineSegment<2>, LineSegment<2>)` — Intersection.hpp:175-183. -/
noncomputable def intersectSegmentSegment (neg1 neg2 : Bool) (lhs rhs : GSegment 2) : Option (Fin 2 → ℝ) :=
  match intersectLineLine lhs.line rhs.line with
  | none => none
  | some p => if isWithin neg1 lhs p ∧ isWithin neg2 rhs p then some p else none

/-- `Intersect(Line<2>, LineSegment<2>)` — Intersection.hpp:192-196 (and 201-205). -/
noncomputable def intersectLineSegment (lhs : GLine 2) (rhs : GSegment 2) : Option (Fin 2 → ℝ) := intersectPlaneSegment (GPlane.ofLine lhs) rhs

/-- `Cross` of two three-dimensional vectors — Vector/Math.hpp:370-380, see `cross`. -/
def cross3 (a b : Fin 3 → ℝ) : Fin 3 → ℝ := sw a ![1, 2, 0] * sw b ![2, 0, 1] + -sw a ![2, 0, 1] * sw b ![1, 2, 0]

/-- `Intersect(Ray<3>, Triangle<3>)` — Intersection.hpp:214-252 (and 257-261). `epsilon` is the machine epsilon of the type. -/
noncomputable def intersectRayTriangle (epsilon : ℝ) (ray : GLine 3) (tr : GTriangle 3) : Option (Fin 3 → ℝ) :=
  let edge1 := tr.b - tr.a
  let edge2 := tr.c - tr.a
  let h := cross3 ray.direction edge2
  let a := dot edge1 h
  if |a| < epsilon then none
  else
    let f := 1 / a
    let s := ray.base - tr.a
    let u := f * dot s h
    if u < 0 ∨ u > 1 then none
    else
      let q := cross3 s edge1
      let v := f * dot ray.direction q
      if v < 0 ∨ u + v > 1 then none
      else
        let t := f * dot edge2 q
        if t < epsilon then none else some (ray.pointAt t)

end Mathter
