import Verif.Model.IeeeLinear

/-!
# Geometry on floating-point values with infinities and NaN

The measurements and intersections of `include/Mathter/Geometry` for floating-point coordinates with all their values (`Fx`). Same structure as
`Model/Geometry` and `Model/RoundedGeometry`. The assertions on the lengths of directions and normals are not evaluated (`NDEBUG`; the members are public,
and a segment's line always has a direction of finite length). `madd` is `a * b + d`, which may be fused.
-/

namespace Mathter.Ie
variable {n : ℕ}

/-- How vector expressions of dimension `n` are evaluated: the configuration, and the trees of the reductions over elements and over lanes.
(Vector/Math.hpp:142-153, Vector/OperationUtil.hpp:124-142.) -/
structure Red (n : ℕ) where
  c : Cfg
  conv : Bool
  tm : RTree (batchSize n false)
  tb : RTree (batchSize n false)
  ts : RTree (n + 1)

/-- The reductions read every element once. (Vector/Math.hpp:142-153.) -/
structure Red.Valid (R : Red n) : Prop where
  tm : R.tm.Valid
  tb : R.tb.Valid
  ts : R.ts.Valid

/-- `Dot(lhs, rhs)` of vectors — Vector/Math.hpp:176-180. -/
noncomputable def vdot (R : Red n) (fl : ℝ → Fx) (a b : Fin n → Fx) : Fx :=
  dot fl R.conv R.tb R.ts (Vec.ofFn a : Vec R.c Fx n false) (Vec.ofFn b : Vec R.c Fx n false)

/-- `lhs - rhs` of vectors, element by element — Vector/Arithmetic.hpp:51-55, 141. -/
noncomputable def vsub (fl : ℝ → Fx) (a b : Fin n → Fx) : Fin n → Fx := fun e => Fx.sub fl (a e) (b e)

/-- `Distance(lhs, rhs)` of vectors — Vector/Math.hpp:216-220. -/
noncomputable def vdistance (R : Red n) (fl : ℝ → Fx) (a b : Fin n → Fx) : Fx :=
  distance fl R.conv R.tb R.ts (Vec.ofFn a : Vec R.c Fx n false) (Vec.ofFn b : Vec R.c Fx n false)

/-- `LengthPrecise(v)` — Vector/Math.hpp:206-213. -/
noncomputable def vlengthPrecise (R : Red (n + 1)) (fl : ℝ → Fx) (tiny Ω : ℝ) (bmax : Fx → Fx → Fx) (v : Fin (n + 1) → Fx) : Option Fx :=
  lengthPrecise fl tiny Ω bmax R.conv R.tm R.tb R.ts (Vec.ofFn v : Vec R.c Fx (n + 1) false)

/-- `NormalizePrecise(v)` — Vector/Math.hpp:256-261: the fallback is the first unit vector. -/
noncomputable def normalizePrecise1 (R : Red (n + 1)) (fl : ℝ → Fx) (bmax : Fx → Fx → Fx) (v : Fin (n + 1) → Fx) : Fin (n + 1) → Fx :=
  normalizePrecise fl bmax R.conv R.tm R.tb R.ts (Vec.ofFn v : Vec R.c Fx (n + 1) false)
    (Vec.ofFn fun i => if i = 0 then .fin 1 else .fin 0 : Vec R.c Fx (n + 1) false)

/-- `Line` and `Ray` — Geometry/Line.hpp:16-62, Geometry/Ray.hpp:14-36. -/
structure XLine (n : ℕ) where
  direction : Fin n → Fx
  base : Fin n → Fx

/-- `LineSegment` — Geometry/LineSegment.hpp:15-78. -/
structure XSegment (n : ℕ) where
  point1 : Fin n → Fx
  point2 : Fin n → Fx

/-- `Hyperplane` — Geometry/Hyperplane.hpp:15-72. -/
structure XPlane (n : ℕ) where
  normal : Fin n → Fx
  scalar : Fx

/-- `Triangle` — Geometry/Triangle.hpp:16-54. -/
structure XTriangle (n : ℕ) where
  a : Fin n → Fx
  b : Fin n → Fx
  c : Fin n → Fx

/-- `Line::Through` — Geometry/Line.hpp:40-42. -/
noncomputable def XLine.through (R : Red (n + 1)) (fl : ℝ → Fx) (bmax : Fx → Fx → Fx) (point1 point2 : Fin (n + 1) → Fx) : XLine (n + 1) :=
  ⟨normalizePrecise1 R fl bmax (vsub fl point2 point1), point1⟩

/-- `Line::PointAt` — Geometry/Line.hpp:55-57. -/
def XLine.pointAt (madd : Fx → Fx → Fx → Fx) (l : XLine n) (param : Fx) : Fin n → Fx := fun e => madd param (l.direction e) (l.base e)

/-- `LineSegment::Direction` and `LineSegment::Line` — Geometry/LineSegment.hpp:41-43, 71-73. -/
noncomputable def XSegment.line (R : Red (n + 1)) (fl : ℝ → Fx) (bmax : Fx → Fx → Fx) (s : XSegment (n + 1)) : XLine (n + 1) :=
  ⟨normalizePrecise1 R fl bmax (vsub fl s.point2 s.point1), s.point1⟩

/-- `LineSegment::InterpolOf` — Geometry/LineSegment.hpp:63-68; `none` if the clamp in `LengthPrecise` is not defined. -/
noncomputable def XSegment.interpolOf (R : Red (n + 1)) (fl : ℝ → Fx) (tiny Ω : ℝ) (bmax : Fx → Fx → Fx) (s : XSegment (n + 1))
    (point : Fin (n + 1) → Fx) : Option Fx :=
  let offset := vsub fl point s.point1
  let direction := vsub fl s.point2 s.point1
  (vlengthPrecise R fl tiny Ω bmax direction).map fun length => Fx.div fl (vdot R fl offset fun e => Fx.div fl (direction e) length) length

/-- `Hyperplane::Base` — Geometry/Hyperplane.hpp:60-62. -/
noncomputable def XPlane.base (fl : ℝ → Fx) (p : XPlane n) : Fin n → Fx := fun e => Fx.mul fl (p.normal e) p.scalar

/-- `Hyperplane::Distance` — Geometry/Hyperplane.hpp:65-67. -/
noncomputable def XPlane.distance (R : Red n) (fl : ℝ → Fx) (p : XPlane n) (point : Fin n → Fx) : Fx := Fx.sub fl (vdot R fl point p.normal) p.scalar

/-- The constructor of a plane from a line — Geometry/Hyperplane.hpp:38-41, Vector/Math.hpp:364-369. -/
noncomputable def XPlane.ofLine (R : Red 2) (fl : ℝ → Fx) (line : XLine 2) : XPlane 2 :=
  let normal := ![(line.direction 1).neg, line.direction 0]
  ⟨normal, vdot R fl normal line.base⟩

/-- `Triangle::Area` — Geometry/Triangle.hpp:38-44; `none` if the clamp in `LengthPrecise` is not defined. -/
noncomputable def XTriangle.area (R : Red (n + 1)) (fl : ℝ → Fx) (tiny Ω : ℝ) (bmax : Fx → Fx → Fx) (tr : XTriangle (n + 1)) : Option Fx :=
  (vlengthPrecise R fl tiny Ω bmax (vsub fl tr.a tr.b)).bind fun l0 =>
  (vlengthPrecise R fl tiny Ω bmax (vsub fl tr.a tr.c)).bind fun l1 =>
  (vlengthPrecise R fl tiny Ω bmax (vsub fl tr.b tr.c)).map fun l2 =>
    let s := Fx.mul fl (.fin (1 / 2)) (Fx.add fl (Fx.add fl l0 l1) l2)
    Fx.sqrt fl (Fx.mul fl (Fx.mul fl (Fx.mul fl s (Fx.sub fl s l0)) (Fx.sub fl s l1)) (Fx.sub fl s l2))

/-- `Triangle::Centroid` — Geometry/Triangle.hpp:48-50. -/
noncomputable def XTriangle.centroid (fl : ℝ → Fx) (tr : XTriangle n) : Fin n → Fx :=
  fun e => Fx.div fl (Fx.add fl (Fx.add fl (tr.a e) (tr.b e)) (tr.c e)) (.fin 3)

/-! ## Intersections -/

/-- `a <= b`: false if one is NaN. (used in Geometry/Intersection.hpp:54, 67, 113, 140.) -/
noncomputable def le (a b : Fx) : Bool := Fx.lt a b || a == b

/-- `impl::IntersectHyperplaneLine` — Geometry/Intersection.hpp:24-41. -/
noncomputable def planeLineParam (R : Red n) (fl : ℝ → Fx) (plane : XPlane n) (line : XLine n) : Option Fx :=
  let bpMinusBl := vsub fl (plane.base fl) line.base
  let nDotD := vdot R fl plane.normal line.direction
  if nDotD.isZero then none else some (Fx.div fl (vdot R fl plane.normal bpMinusBl) nDotD)

/-- `Intersect(Hyperplane, Line)` — Geometry/Intersection.hpp:79-99. -/
noncomputable def intersectPlaneLine (R : Red n) (fl : ℝ → Fx) (madd : Fx → Fx → Fx → Fx) (plane : XPlane n) (line : XLine n) : Option (Fin n → Fx) :=
  (planeLineParam R fl plane line).map (line.pointAt madd)

/-- `Intersect(Hyperplane, LineSegment)` — Geometry/Intersection.hpp:108-126. -/
noncomputable def intersectPlaneSegment (R : Red (n + 1)) (fl : ℝ → Fx) (madd : Fx → Fx → Fx → Fx) (bmax : Fx → Fx → Fx) (plane : XPlane (n + 1))
    (seg : XSegment (n + 1)) : Option (Fin (n + 1) → Fx) :=
  match planeLineParam R fl plane (seg.line R fl bmax) with
  | none => none
  | some t => if le (.fin 0) t && Fx.lt t (vdistance R fl seg.point1 seg.point2) then some ((seg.line R fl bmax).pointAt madd t) else none

/-- `Intersect(Hyperplane, Ray)` — Geometry/Intersection.hpp:135-153. -/
noncomputable def intersectPlaneRay (R : Red n) (fl : ℝ → Fx) (madd : Fx → Fx → Fx → Fx) (plane : XPlane n) (ray : XLine n) : Option (Fin n → Fx) :=
  match planeLineParam R fl plane ray with
  | none => none
  | some t => if le (.fin 0) t then some (ray.pointAt madd t) else none

/-- `Intersect(Line<2>, Line<2>)` — Geometry/Intersection.hpp:162-166. -/
noncomputable def intersectLineLine (R : Red 2) (fl : ℝ → Fx) (madd : Fx → Fx → Fx → Fx) (lhs rhs : XLine 2) : Option (Fin 2 → Fx) :=
  intersectPlaneLine R fl madd (XPlane.ofLine R fl lhs) rhs

/-- `std::copysign(1, x)`; `neg` is the sign of a zero or NaN. (used in Geometry/Intersection.hpp:53, 66.) -/
noncomputable def copysign1 (neg : Bool) (x : Fx) : Fx :=
  if Fx.lt x (.fin 0) then .fin (-1) else if Fx.lt (.fin 0) x then .fin 1 else if neg then .fin (-1) else .fin 1

/-- `impl::IsWithin(LineSegment, Vector)` — Geometry/Intersection.hpp:45-55. -/
noncomputable def isWithin (neg : Bool) (fl : ℝ → Fx) (seg : XSegment (n + 1)) (point : Fin (n + 1) → Fx) : Bool :=
  let end' := vsub fl seg.point2 seg.point1
  let absEnd := fun i => (end' i).abs
  let offset := vsub fl point seg.point1
  let axisIdx := forUp (n + 1) 1 (fun i largest => if Fx.lt (absEnd largest) (absEnd i) then i else largest) 0
  let limit := end' axisIdx
  let coord := Fx.mul fl (copysign1 neg limit) (offset axisIdx)
  le (.fin 0) coord && le coord limit.abs

/-- `Intersect(LineSegment<2>, LineSegment<2>)` — Geometry/Intersection.hpp:175-183. -/
noncomputable def intersectSegmentSegment (neg1 neg2 : Bool) (R : Red 2) (fl : ℝ → Fx) (madd : Fx → Fx → Fx → Fx) (bmax : Fx → Fx → Fx)
    (lhs rhs : XSegment 2) : Option (Fin 2 → Fx) :=
  match intersectLineLine R fl madd (lhs.line R fl bmax) (rhs.line R fl bmax) with
  | none => none
  | some p => if isWithin neg1 fl lhs p && isWithin neg2 fl rhs p then some p else none

/-- `Intersect(Line<2>, LineSegment<2>)` — Geometry/Intersection.hpp:192-205. -/
noncomputable def intersectLineSegment (R : Red 2) (fl : ℝ → Fx) (madd : Fx → Fx → Fx → Fx) (bmax : Fx → Fx → Fx) (lhs : XLine 2) (rhs : XSegment 2) :
    Option (Fin 2 → Fx) :=
  intersectPlaneSegment R fl madd bmax (XPlane.ofLine R fl lhs) rhs

/-- One element of `FMTA(a, b, c, d)` of floats — Vector/Arithmetic.hpp:214-217, 251-269. -/
noncomputable def fmta1 (fl : ℝ → Fx) (a b x d : Fx) : Fx :=
  let w := Fx.mul fl d x
  let e := Fx.add fl (Fx.mul .fin d x) (Fx.mul fl w (.fin (-1)))
  let f := Fx.add fl (Fx.mul .fin a b) w
  Fx.add fl f e

/-- `Cross` of two three-dimensional vectors — Vector/Math.hpp:370-380. -/
noncomputable def cross3 (fl : ℝ → Fx) (a b : Fin 3 → Fx) : Fin 3 → Fx := fun i =>
  fmta1 fl (a (![1, 2, 0] i)) (b (![2, 0, 1] i)) (Fx.mul fl (a (![2, 0, 1] i)) (.fin (-1))) (b (![1, 2, 0] i))

/-- `Intersect(Ray<3>, Triangle<3>)` — Geometry/Intersection.hpp:214-261. `epsilon` is the machine epsilon of the type. -/
noncomputable def intersectRayTriangle (R : Red 3) (fl : ℝ → Fx) (madd : Fx → Fx → Fx → Fx) (epsilon : ℝ) (ray : XLine 3) (tr : XTriangle 3) :
    Option (Fin 3 → Fx) :=
  let edge1 := vsub fl tr.b tr.a
  let edge2 := vsub fl tr.c tr.a
  let h := cross3 fl ray.direction edge2
  let a := vdot R fl edge1 h
  if Fx.lt a.abs (.fin epsilon) then none
  else
    let f := Fx.div fl (.fin 1) a
    let s := vsub fl ray.base tr.a
    let u := Fx.mul fl f (vdot R fl s h)
    if Fx.lt u (.fin 0) || Fx.lt (.fin 1) u then none
    else
      let q := cross3 fl s edge1
      let v := Fx.mul fl f (vdot R fl ray.direction q)
      if Fx.lt v (.fin 0) || Fx.lt (.fin 1) (Fx.add fl u v) then none
      else
        let t := Fx.mul fl f (vdot R fl edge2 q)
        if Fx.lt t (.fin epsilon) then none else some (ray.pointAt madd t)

/-! ## Orthogonalisation -/

/-- The lambda `proj` of `GramSchmidtOrthogonalize` — Vector/Math.hpp:293-296. -/
noncomputable def gsProj (R : Red (n + 1)) (fl : ℝ → Fx) (bmax : Fx → Fx → Fx) (u v : Fin (n + 1) → Fx) : Fin (n + 1) → Fx :=
  let uScaled := normalizePrecise1 R fl bmax u
  fun e => Fx.mul fl (Fx.div fl (vdot R fl v uScaled) (vdot R fl u uScaled)) (u e)

/-- The inner loop of `GramSchmidtOrthogonalize` — Vector/Math.hpp:300-303. -/
noncomputable def gsInner (R : Red (n + 1)) (fl : ℝ → Fx) (bmax : Fx → Fx → Fx) : List (Fin (n + 1) → Fx) → (Fin (n + 1) → Fx) → (Fin (n + 1) → Fx)
  | [], uk => uk
  | u :: us, uk => gsInner R fl bmax us (vsub fl uk (gsProj R fl bmax u uk))

/-- The outer loop of `GramSchmidtOrthogonalize`; `done` are the outputs so far — Vector/Math.hpp:298-305. -/
noncomputable def gsLoop (R : Red (n + 1)) (fl : ℝ → Fx) (bmax : Fx → Fx → Fx) : List (Fin (n + 1) → Fx) → List (Fin (n + 1) → Fx) →
    List (Fin (n + 1) → Fx)
  | [], done => done
  | v :: vs, done => gsLoop R fl bmax vs (done ++ [gsInner R fl bmax done v])

/-- `GramSchmidtOrthogonalize(first, last, out)` — Vector/Math.hpp:291-306. -/
noncomputable def gramSchmidt (R : Red (n + 1)) (fl : ℝ → Fx) (bmax : Fx → Fx → Fx) (vs : List (Fin (n + 1) → Fx)) : List (Fin (n + 1) → Fx) :=
  gsLoop R fl bmax vs []

end Mathter.Ie
