import Mathlib.Analysis.SpecialFunctions.Trigonometric.Basic
import Mathlib.Analysis.SpecialFunctions.Trigonometric.Deriv
import Mathlib.LinearAlgebra.Matrix.Notation
import Mathlib.Data.List.Rotate
import Verif.Model.Quaternion
import Verif.Model.VectorMath

/-!
# Transform builders

`Transforms/*.hpp`, at element level. A builder's conversion operator is a function of the requested order and of the shape `r × c`; the
C++ code restricts the shapes by overloads (`Verif.Model.BuilderShapes`, C105), here every function accepts every shape and the theorems quantify
over the shapes that can represent the transform. Writes outside of the shape (which the overloads rule out) leave the matrix unchanged. `none` is a failed assertion, a thrown
exception or a division by zero.

`Random` (RandomBuilder.hpp) is modelled in `Verif.Model.Construct` (C79).
-/

namespace Mathter
universe u
variable {K : Type u}

/-- `m(i, j) = x`. Matrix/Matrix.hpp:248-254 (element access, see C20). -/
def setAt {r c : ℕ} (i j : ℕ) (x : K) (m : Matrix (Fin r) (Fin c) K) : Matrix (Fin r) (Fin c) K :=
  Matrix.of fun a b => if a.val = i ∧ b.val = j then x else m a b

/-- The lambda `elem(i, j) = x` with "indices according to follow vector order" — Rotation3DBuilder.hpp:29-32, Rotation2DBuilder.hpp:60-62;
also `(Order == FOLLOW_VECTOR ? m(i, j) : m(j, i)) = x` — OrthographicBuilder.hpp:60. -/
def elemF {r c : ℕ} (o : Order) (i j : ℕ) (x : K) (m : Matrix (Fin r) (Fin c) K) : Matrix (Fin r) (Fin c) K :=
  match o with
  | .follow => setAt i j x m
  | .precede => setAt j i x m

/-- `m.Insert(i0, j0, sub)` on elements (C22). Matrix/Matrix.hpp:376-386. -/
def insertAt {r c sr sc : ℕ} (i0 j0 : ℕ) (sub : Matrix (Fin sr) (Fin sc) K) (m : Matrix (Fin r) (Fin c) K) :
    Matrix (Fin r) (Fin c) K :=
  Matrix.of fun a b =>
    if h : (i0 ≤ a.val ∧ a.val < i0 + sr) ∧ (j0 ≤ b.val ∧ b.val < j0 + sc) then
      sub ⟨a.val - i0, by omega⟩ ⟨b.val - j0, by omega⟩
    else m a b

/-- `Matrix<T, n, n, Order>(m)` for a `PRECEDE_VECTOR` matrix `m`: a change of order transposes (C21). Matrix/Matrix.hpp:186-199. -/
def fromPrecede {n : ℕ} (o : Order) (m : Matrix (Fin n) (Fin n) K) : Matrix (Fin n) (Fin n) K :=
  match o with
  | .precede => m
  | .follow => m.transpose

/-- The same for a `FOLLOW_VECTOR` matrix. (Matrix/Matrix.hpp:186-199.) -/
def fromFollow {n : ℕ} (o : Order) (m : Matrix (Fin n) (Fin n) K) : Matrix (Fin n) (Fin n) K :=
  match o with
  | .precede => m.transpose
  | .follow => m

/-! ## Zero, Identity, Scale, Translation -/

/-- `Zero()` as a matrix — ZeroBuilder.hpp:22-30: every stripe is the zero vector. -/
def zeroMat [Zero K] (r c : ℕ) : Matrix (Fin r) (Fin c) K := Matrix.of fun _ _ => 0

/-- `Zero()` as a vector — ZeroBuilder.hpp:32-35. -/
def zeroVec [Zero K] (n : ℕ) : Fin n → K := fun _ => 0

/-- `Zero()` as a quaternion — ZeroBuilder.hpp:37-40. -/
def zeroQuat [Zero K] (l : QLayout) : Quat K l := Quat.mk4 l 0 0 0 0

/-- `Identity()` as a matrix — IdentityBuilder.hpp:19-26. -/
def identityMat [Zero K] [One K] (r c : ℕ) : Matrix (Fin r) (Fin c) K :=
  forUp (min r c) 0 (fun i m => setAt i.val i.val 1 m) (zeroMat r c)

/-- `Identity()` as a quaternion — IdentityBuilder.hpp:28-31. -/
def identityQuat [Zero K] [One K] (l : QLayout) : Quat K l := Quat.mk4 l 1 0 0 0

/-- `ScaleBuilder::Set` — ScaleBuilder.hpp:54-64. The second loop continues with the `i` of the first. -/
def scaleMat [Zero K] [One K] {n : ℕ} (r c : ℕ) (scale : Fin n → K) : Matrix (Fin r) (Fin c) K :=
  let m := zeroMat r c
  let m := forUp n 0 (fun i m => setAt i.val i.val (scale i) m) m
  forUp (min r c) n (fun i m => setAt i.val i.val 1 m) m

/-- `TranslationBuilder::Set` — TranslationBuilder.hpp:47-60. -/
def translationMat [Zero K] [One K] {n : ℕ} (o : Order) (r c : ℕ) (translation : Fin n → K) : Matrix (Fin r) (Fin c) K :=
  let m := identityMat r c
  match o with
  | .follow => forUp n 0 (fun i m => setAt (r - 1) i.val (translation i) m) m
  | .precede => forUp n 0 (fun i m => setAt i.val (c - 1) (translation i) m) m

/-! ## Shear -/

/-- `ShearBuilderAligned` — ShearBuilder.hpp:39-57. Negative indices fail the assertion of the element access (Matrix/Matrix.hpp:248-254). -/
def shearAligned [Zero K] [One K] (o : Order) (r c : ℕ) (slope : K) (dir mod : ℤ) : Option (Matrix (Fin r) (Fin c) K) :=
  if dir = mod ∨ dir < 0 ∨ mod < 0 then none
  else
    let m := identityMat r c
    match o with
    | .follow => if mod < r ∧ dir < c then some (setAt mod.toNat dir.toNat slope m) else none
    | .precede => if dir < r ∧ mod < c then some (setAt dir.toNat mod.toNat slope m) else none

/-- `ShearMatrixGeneral` — ShearBuilder.hpp:17-30. `d` is a column, `mT` a row. -/
def shearGeneral [CommRing K] {n : ℕ} (o : Order) (r c : ℕ) (slope : K) (dir mod : Fin n → K) : Matrix (Fin r) (Fin c) K :=
  let d : Matrix (Fin n) (Fin 1) K := Matrix.of fun i _ => dir i
  let mT : Matrix (Fin 1) (Fin n) K := Matrix.of fun _ j => mod j
  let shear := identityMat n n + slope • d * mT
  insertAt 0 0 (fromPrecede o shear) (identityMat r c)

/-! ## Rotations -/

/-- `Rotation2DBuilder::Set` — Rotation2DBuilder.hpp:53-69. -/
noncomputable def rotation2D (o : Order) (r c : ℕ) (angle : ℝ) : Matrix (Fin r) (Fin c) ℝ :=
  let m := identityMat r c
  let C := Real.cos angle
  let S := Real.sin angle
  let m := elemF o 0 0 C m
  let m := elemF o 0 1 S m
  let m := elemF o 1 0 (-S) m
  elemF o 1 1 C m

/-- `RotationMatrixSingleAxis` — Rotation3DBuilder.hpp:23-59. -/
noncomputable def rotationSingleAxis (o : Order) (r c : ℕ) (angle : ℝ) (axis : ℤ) : Option (Matrix (Fin r) (Fin c) ℝ) :=
  if 0 ≤ axis ∧ axis < 3 then
    let m := identityMat r c
    let C := Real.cos angle
    let S := Real.sin angle
    some <|
      if axis = 0 then elemF o 2 2 C (elemF o 2 1 (-S) (elemF o 1 2 S (elemF o 1 1 C m)))
      else if axis = 1 then elemF o 2 2 C (elemF o 2 0 S (elemF o 0 2 (-S) (elemF o 0 0 C m)))
      else elemF o 1 1 C (elemF o 1 0 (-S) (elemF o 0 1 S (elemF o 0 0 C m)))
  else none

/-- `RotationMatrixAxisAngle` — Rotation3DBuilder.hpp:62-83. -/
noncomputable def rotationMatrixAxisAngle (o : Order) (r c : ℕ) (axis : Fin 3 → ℝ) (angle : ℝ) : Matrix (Fin r) (Fin c) ℝ :=
  let C := Real.cos angle
  let S := Real.sin angle
  let u : Matrix (Fin 3) (Fin 1) ℝ := Matrix.of fun i _ => axis i
  let uT : Matrix (Fin 1) (Fin 3) ℝ := Matrix.of fun _ j => axis j
  let cross : Matrix (Fin 3) (Fin 3) ℝ := !![0, -axis 2, axis 1; axis 2, 0, -axis 0; -axis 1, axis 0, 0]
  let rot := C • identityMat 3 3 + S • cross + (1 - C) • u * uT
  insertAt 0 0 (fromPrecede o rot) (identityMat r c)

/-- `RotationQuaternionAxisAngle` — Rotation3DBuilder.hpp:86-92. -/
noncomputable def rotationQuatAxisAngle (l : QLayout) (axis : Fin 3 → ℝ) (angle : ℝ) : Quat ℝ l :=
  Quat.ofParts l (Real.cos (angle / 2)) (fun i => Real.sin (angle / 2) * axis i)

/-- `RotationAxisAngle(axis, angle)` converted to a matrix — Rotation3DBuilder.hpp:196-214, 310-314; the assertion on the axis length. -/
noncomputable def rotationAxisAngle (o : Order) (r c : ℕ) (axis : Fin 3 → ℝ) (angle : ℝ) : Option (Matrix (Fin r) (Fin c) ℝ) :=
  open Classical in
  if |1 - length axis| < 0.05 then some (rotationMatrixAxisAngle o r c axis angle) else none

/-- `RotationAxisAngle(axis, angle)` converted to a quaternion — Rotation3DBuilder.hpp:216-219, 310-314. -/
noncomputable def rotationAxisAngleQ (l : QLayout) (axis : Fin 3 → ℝ) (angle : ℝ) : Option (Quat ℝ l) :=
  open Classical in
  if |1 - length axis| < 0.05 then some (rotationQuatAxisAngle l axis angle) else none

/-- `Vector vec = Zero(); vec[axis] = 1;` — Rotation3DBuilder.hpp:122-123, 161-166; the index assertion of `operator[]`. -/
def unitAxis (axis : ℤ) : Option (Fin 3 → ℝ) :=
  if 0 ≤ axis ∧ axis < 3 then some fun i => if (i.val : ℤ) = axis then 1 else zeroVec 3 i else none

/-- `RotationAxis(angle, axis)` converted to a quaternion — Rotation3DBuilder.hpp:120-125. -/
noncomputable def rotationSingleAxisQ (l : QLayout) (angle : ℝ) (axis : ℤ) : Option (Quat ℝ l) :=
  (unitAxis axis).map fun vec => rotationQuatAxisAngle l vec angle

/-- The product in `Rotation3DTriAxisBuilder::Make` — Rotation3DBuilder.hpp:179. -/
noncomputable def triProduct (o : Order) (r0 r1 r2 : Matrix (Fin 3) (Fin 3) ℝ) : Matrix (Fin 3) (Fin 3) ℝ :=
  match o with
  | .follow => r0 * r1 * r2
  | .precede => r2 * r1 * r0

/-- `Rotation3DTriAxisBuilder::Make` — Rotation3DBuilder.hpp:174-183. -/
noncomputable def rotationTriAxis (o : Order) (r c : ℕ) (angles : Fin 3 → ℝ) (axes : Fin 3 → ℤ) : Option (Matrix (Fin r) (Fin c) ℝ) :=
  (rotationSingleAxis o 3 3 (angles 0) (axes 0)).bind fun r0 =>
  (rotationSingleAxis o 3 3 (angles 1) (axes 1)).bind fun r1 =>
  (rotationSingleAxis o 3 3 (angles 2) (axes 2)).bind fun r2 =>
  some (insertAt 0 0 (triProduct o r0 r1 r2) (identityMat r c))

/-- The quaternion conversion of `Rotation3DTriAxisBuilder` — Rotation3DBuilder.hpp:159-171. -/
noncomputable def rotationTriAxisQ (l : QLayout) (angles : Fin 3 → ℝ) (axes : Fin 3 → ℤ) : Option (Quat ℝ l) :=
  (unitAxis (axes 0)).bind fun vec0 =>
  (unitAxis (axes 1)).bind fun vec1 =>
  (unitAxis (axes 2)).bind fun vec2 =>
  let r0 := rotationQuatAxisAngle l vec0 (angles 0)
  let r1 := rotationQuatAxisAngle l vec1 (angles 1)
  let r2 := rotationQuatAxisAngle l vec2 (angles 2)
  some (Quat.mul (Quat.mul r2 r1) r0)

/-- `RotationX/Y/Z` — Rotation3DBuilder.hpp:253-272. -/
noncomputable def rotationX (o : Order) (r c : ℕ) (angle : ℝ) := rotationSingleAxis o r c angle 0
/-- `RotationY` — Rotation3DBuilder.hpp:261-264. -/
noncomputable def rotationY (o : Order) (r c : ℕ) (angle : ℝ) := rotationSingleAxis o r c angle 1
/-- `RotationZ` — Rotation3DBuilder.hpp:269-272. -/
noncomputable def rotationZ (o : Order) (r c : ℕ) (angle : ℝ) := rotationSingleAxis o r c angle 2
/-- `RotationX` converted to a quaternion — Rotation3DBuilder.hpp:253-256, 120-125. -/
noncomputable def rotationXQ (l : QLayout) (angle : ℝ) : Option (Quat ℝ l) := rotationSingleAxisQ l angle 0
/-- `RotationY` converted to a quaternion — Rotation3DBuilder.hpp:261-264, 120-125. -/
noncomputable def rotationYQ (l : QLayout) (angle : ℝ) : Option (Quat ℝ l) := rotationSingleAxisQ l angle 1
/-- `RotationZ` converted to a quaternion — Rotation3DBuilder.hpp:269-272, 120-125. -/
noncomputable def rotationZQ (l : QLayout) (angle : ℝ) : Option (Quat ℝ l) := rotationSingleAxisQ l angle 2
/-- `RotationEuler` — Rotation3DBuilder.hpp:289-292. -/
noncomputable def rotationEuler (o : Order) (r c : ℕ) (z1 x2 z3 : ℝ) := rotationTriAxis o r c ![z1, x2, z3] ![2, 0, 2]
/-- `RotationRPY` — Rotation3DBuilder.hpp:300-303. -/
noncomputable def rotationRPY (o : Order) (r c : ℕ) (x1 y2 z3 : ℝ) := rotationTriAxis o r c ![x1, y2, z3] ![0, 1, 2]
/-- `RotationEuler` as a quaternion — Rotation3DBuilder.hpp:289-292. -/
noncomputable def rotationEulerQ (l : QLayout) (z1 x2 z3 : ℝ) := rotationTriAxisQ l ![z1, x2, z3] ![2, 0, 2]
/-- `RotationRPY` as a quaternion — Rotation3DBuilder.hpp:300-303. -/
noncomputable def rotationRPYQ (l : QLayout) (x1 y2 z3 : ℝ) := rotationTriAxisQ l ![x1, y2, z3] ![0, 1, 2]

/-! ## Projections -/

open Classical in
/-- `OrthographicBuilder::Set` — OrthographicBuilder.hpp:49-62, `Dim = n + 1`; `none` is a division by zero. -/
noncomputable def orthographic {n : ℕ} [Field K] (o : Order) (r c : ℕ) (minB maxB : Fin (n + 1) → K) (projNear projFar : K) :
    Option (Matrix (Fin r) (Fin c) K) :=
  let volumeSize := fun i => maxB i - minB i
  if ∃ i, volumeSize i = 0 then none
  else
    let scale := fun i => 2 / volumeSize i
    let scale := Function.update scale (Fin.last n) (scale (Fin.last n) * (1 / 2 * (projFar - projNear)))
    let offset := fun i => -(maxB i + minB i) / 2 * scale i
    let offset := Function.update offset (Fin.last n) (offset (Fin.last n) + (projFar + projNear) / 2)
    some <| forUp (n + 1) 0 (fun i m =>
      elemF o (n + 1) i.val (offset i) (setAt i.val i.val (scale i) m)) (identityMat r c)

open Classical in
/-- `PerspectiveBuilder::Set` — PerspectiveBuilder.hpp:34-66, `Dim = n + 2`; `none` is the failed assertion or a division by zero (by a
ratio or by `tan(fov / 2)`, which Lean's `Real.tan` also gives as 0 where the tangent has its poles). -/
noncomputable def perspective {n : ℕ} (o : Order) (r c : ℕ) (fovX : ℝ) (ratios : Fin (n + 1) → ℝ) (nearPlane farPlane projNear projFar : ℝ) :
    Option (Matrix (Fin r) (Fin c) ℝ) :=
  if (nearPlane < 0 ∧ farPlane < nearPlane) ∨ (0 < nearPlane ∧ nearPlane < farPlane) then
    let absFovX := |fovX|
    let N := nearPlane
    let F := farPlane
    let n' := projNear
    let f := projFar
    let C : ℝ := if nearPlane < 0 then -1 else 1
    let A := C * (f * F - n' * N) / (F - N)
    let B := C * F * N * (n' - f) / (F - N)
    let w := Real.tan (1 / 2 * absFovX)
    if w = 0 ∨ ∃ i, ratios i = 0 then none
    else
      let adjRatios := fun i => ratios 0 / ratios i
      let adjRatios := fun i => adjRatios i / w
      let m := zeroMat r c
      let m := forUp (n + 1) 0 (fun i m => setAt i.val i.val (adjRatios i) m) m
      let m := setAt (r - 2) (c - 2) A m
      let BC := match o with
        | .follow => (C, B)
        | .precede => (B, C)
      let m := setAt (r - 2) (c - 1) BC.1 m
      some (setAt (r - 1) (c - 2) BC.2 m)
  else none

/-- The two-dimensional overload — PerspectiveBuilder.hpp:106-109. -/
noncomputable def perspective2D (o : Order) (r c : ℕ) (fov nearPlane farPlane projNear projFar : ℝ) : Option (Matrix (Fin r) (Fin c) ℝ) :=
  open Classical in
  perspective (n := 0) o r c |fov| ![if fov < 0 then -1 else 1] nearPlane farPlane projNear projFar

/-- The three-dimensional overload — PerspectiveBuilder.hpp:123-129; `none` also for `1 / aspectRatio` with a zero ratio. -/
noncomputable def perspective3D (o : Order) (r c : ℕ) (fovX aspectRatio nearPlane farPlane projNear projFar : ℝ) :
    Option (Matrix (Fin r) (Fin c) ℝ) :=
  open Classical in
  if aspectRatio = 0 then none
  else
    let ratioX : ℝ := if fovX < 0 then -1 else 1
    let ratioY := 1 / aspectRatio
    let absFovX := |fovX|
    perspective (n := 1) o r c absFovX ![ratioX, ratioY] nearPlane farPlane projNear projFar

/-! ## Look-at -/

/-- `rotation` as computed by `ViewBuilder::Set` — ViewBuilder.hpp:52-79, `Dim = n + 2`: its columns. `d0`, `r0` are the uninitialised
locals of `Cross`. -/
noncomputable def lookColumns {n : ℕ} (d0 : Fin (n + 1) → Fin (n + 1) → ℝ) (r0 : Fin (n + 2) → ℝ) (eye target : Fin (n + 2) → ℝ)
    (bases : Fin n → Fin (n + 2) → ℝ) (flip : Fin (n + 2) → Bool) : Option (List (Fin (n + 2) → ℝ)) :=
  open Classical in
  let lookAxis := eye - target
  let ext := List.ofFn bases ++ [lookAxis]
  (cross (· / ·) d0 r0 ext).bind fun sideAxis =>
  let ext := sideAxis :: ext.rotate n
  (gramSchmidt ext).bind fun columns =>
  let columns := columns.map normalizePrecise1
  let columns := columns.take 1 ++ (columns.drop 1).rotate 1
  some (columns.zipIdx.map fun p => if h : p.2 < n + 2 then (if flip ⟨p.2, h⟩ then -p.1 else p.1) else p.1)

/-- `ViewBuilder::Set` — ViewBuilder.hpp:50-91. -/
noncomputable def lookAt {n : ℕ} (o : Order) (r c : ℕ) (d0 : Fin (n + 1) → Fin (n + 1) → ℝ) (r0 : Fin (n + 2) → ℝ)
    (eye target : Fin (n + 2) → ℝ) (bases : Fin n → Fin (n + 2) → ℝ) (flip : Fin (n + 2) → Bool) : Option (Matrix (Fin r) (Fin c) ℝ) :=
  (lookColumns d0 r0 eye target bases flip).bind fun columns =>
  let rotation : Matrix (Fin (n + 2)) (Fin (n + 2)) ℝ := Matrix.of fun i j => (columns.getD j.val 0) i
  let translation := Matrix.vecMul (-eye) rotation
  let m := identityMat r c
  let m := insertAt 0 0 (fromFollow o rotation) m
  match o with
  | .follow => some (insertAt (n + 2) 0 (Matrix.of fun (_ : Fin 1) j => translation j) m)
  | .precede => some (insertAt 0 (n + 2) (Matrix.of fun i (_ : Fin 1) => translation i) m)

/-- The two-dimensional overload — ViewBuilder.hpp:127-130. -/
noncomputable def lookAt2D (o : Order) (r c : ℕ) (d0 : Fin 1 → Fin 1 → ℝ) (r0 : Fin 2 → ℝ) (eye target : Fin 2 → ℝ)
    (positiveYForward flipX : Bool) : Option (Matrix (Fin r) (Fin c) ℝ) :=
  lookAt (n := 0) o r c d0 r0 eye target (fun i => i.elim0) ![flipX, positiveYForward]

/-- The three-dimensional overload — ViewBuilder.hpp:142-145. -/
noncomputable def lookAt3D (o : Order) (r c : ℕ) (d0 : Fin 2 → Fin 2 → ℝ) (r0 : Fin 3 → ℝ) (eye target up : Fin 3 → ℝ)
    (positiveZForward flipX flipY : Bool) : Option (Matrix (Fin r) (Fin c) ℝ) :=
  lookAt (n := 1) o r c d0 r0 eye target ![up] ![flipX, flipY, positiveZForward]

end Mathter
