import Verif.Model.RoundedSegment

/-!
# The assertions on unit vectors, in floating point

The constructors of lines, rays and hyperplanes (`include/Mathter/Geometry`) and of rotations about an axis stop the program if a direction is not normalised up to
a tolerance. `none` is a failed assertion. `len` is `Length`, `norm` is `NormalizePrecise`, and `fl` rounds, without overflow or underflow.
-/

namespace Mathter.Fl
variable {n : ℕ}

/-- `std::abs(T(1) - Length(v)) < tolerance` — Line.hpp:34, Hyperplane.hpp:29, 34, Rotation3DBuilder.hpp:312. -/
def unitCheck (fl : ℝ → ℝ) (len : (Fin n → ℝ) → ℝ) (lim : ℝ) (v : Fin n → ℝ) : Prop := |fl (1 - len v)| < lim

open Classical in
/-- `Line(base, direction)` with `lim = T(0.001)`, also `Ray(base, direction)`, which inherits it — Line.hpp:33-35, Ray.hpp:20. -/
noncomputable def lineNew (fl : ℝ → ℝ) (len : (Fin n → ℝ) → ℝ) (lim : ℝ) (base direction : Fin n → ℝ) : Option (GLine n) :=
  if unitCheck fl len lim direction then some ⟨direction, base⟩ else none

open Classical in
/-- `Hyperplane(base, normal)` with `lim = 0.0001f` — Hyperplane.hpp:28-30. -/
noncomputable def planeNew (fl : ℝ → ℝ) (len : (Fin n → ℝ) → ℝ) (dot : (Fin n → ℝ) → (Fin n → ℝ) → ℝ) (lim : ℝ) (base normal : Fin n → ℝ) : Option (GPlane n) :=
  if unitCheck fl len lim normal then some ⟨normal, dot normal base⟩ else none

/-- `Line::Through(point1, point2)` — Line.hpp:40-42. -/
noncomputable def throughNew (fl : ℝ → ℝ) (len : (Fin n → ℝ) → ℝ) (norm : (Fin n → ℝ) → Fin n → ℝ) (lim : ℝ) (point1 point2 : Fin n → ℝ) : Option (GLine n) :=
  lineNew fl len lim point1 (norm fun i => fl (point2 i - point1 i))

/-- `LineSegment::Line()` — LineSegment.hpp:71-73, 41-43. -/
noncomputable def segLineNew (fl : ℝ → ℝ) (len : (Fin n → ℝ) → ℝ) (norm : (Fin n → ℝ) → Fin n → ℝ) (lim : ℝ) (s : GSegment n) : Option (GLine n) :=
  lineNew fl len lim s.point1 (norm fun i => fl (s.point2 i - s.point1 i))

/-- The conversion of a hyperplane to a line — Hyperplane.hpp:44-47. -/
noncomputable def toLineNew (fl : ℝ → ℝ) (len : (Fin 2 → ℝ) → ℝ) (lim : ℝ) (p : GPlane 2) : Option (GLine 2) :=
  lineNew fl len lim (planeBase fl p) (cross2 p.normal)

/-- The conversion of a ray to the scalar type that `fl` rounds to — Ray.hpp:29-30. -/
noncomputable def rayConvert (fl : ℝ → ℝ) (len : (Fin n → ℝ) → ℝ) (lim : ℝ) (r : GLine n) : Option (GLine n) :=
  lineNew fl len lim (fun i => fl (r.base i)) fun i => fl (r.direction i)

/-- The conversion of a line to the scalar type that `fl` rounds to, without an assertion — Line.hpp:26-27. -/
def lineConvert (fl : ℝ → ℝ) (l : GLine n) : GLine n := ⟨fun i => fl (l.direction i), fun i => fl (l.base i)⟩

end Mathter.Fl
