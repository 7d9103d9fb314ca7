import Verif.Model.RoundedGeometry
import Mathlib.LinearAlgebra.CrossProduct

/-!
# Rounded evaluation of the intersection of a ray and a triangle

`Intersect(Ray, Triangle)` (`include/Mathter/Geometry/Intersection.hpp`) with a rounding `fl` after every operation. `fl` has no overflow or underflow.
`cross` is `Cross`, `dot` is `Dot`, and `madd` is the `a * b + c` of `Ray::PointAt`, which the compiler may contract. Ray and triangle have the same scalar
type, so that the conversions to the common type do nothing.
-/

namespace Mathter.Fl

/-- `Cross` of floats in three dimensions (Vector/Math.hpp:370-380) with the relative error `(1 + u) ^ 4 - 1` in every component; `Fl.cross3` has it. -/
def IsCross (fl : ℝ → ℝ) (u : ℝ) (cross : (Fin 3 → ℝ) → (Fin 3 → ℝ) → Fin 3 → ℝ) : Prop :=
  ∀ a b, (∀ i, fl (a i) = a i) → (∀ i, fl (b i) = b i) → ∀ i, |cross a b i - crossProduct a b i| ≤ ((1 + u) ^ 4 - 1) * |crossProduct a b i|

open Classical in
/-- `Intersect(Ray<3>, Triangle<3>)` — Intersection.hpp:214-252 (and 257-261). `epsilon` is the machine epsilon of the type. -/
noncomputable def intersectRayTriangle (fl : ℝ → ℝ) (madd : ℝ → ℝ → ℝ → ℝ) (dot : (Fin 3 → ℝ) → (Fin 3 → ℝ) → ℝ)
    (cross : (Fin 3 → ℝ) → (Fin 3 → ℝ) → Fin 3 → ℝ) (epsilon : ℝ) (ray : GLine 3) (tr : GTriangle 3) : Option (Fin 3 → ℝ) :=
  let edge1 : Fin 3 → ℝ := fun i => fl (tr.b i - tr.a i)
  let edge2 : Fin 3 → ℝ := fun i => fl (tr.c i - tr.a i)
  let h := cross ray.direction edge2
  let a := dot edge1 h
  if |a| < epsilon then none
  else
    let f := fl (1 / a)
    let s : Fin 3 → ℝ := fun i => fl (ray.base i - tr.a i)
    let u := fl (f * dot s h)
    if u < 0 ∨ u > 1 then none
    else
      let q := cross s edge1
      let v := fl (f * dot ray.direction q)
      if v < 0 ∨ fl (u + v) > 1 then none
      else
        let t := fl (f * dot edge2 q)
        if t < epsilon then none else some (pointAt madd ray t)

end Mathter.Fl
