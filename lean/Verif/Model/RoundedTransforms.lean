import Verif.Model.Transforms
import Verif.Model.RoundedSVD
import Verif.Model.RoundedDeterminant
import Verif.Model.RoundedQuaternion

/-!
# Rounded transform builders

The floating-point operations of the rotation, projection and shear builders (`include/Mathter/Transforms`) with a rounding `fl` after every operation;
`ps`, `pd` and `madd` may be fused (contracted by the compiler). `fl` has no overflow or underflow. `cosF`, `sinF` and `tanF` are the functions of
the standard library, `conv` converts the angle and `cast` the elements to the element type of the target.
-/

namespace Mathter.Fl

/-- `std::cos` and `std::sin` have absolute errors of at most `e`. (Rotation2DBuilder.hpp:57-58, Rotation3DBuilder.hpp:34-35, 67-68, 87-88.) -/
def IsTrig (e : ℝ) (cosF sinF : ℝ → ℝ) : Prop := ∀ x, |cosF x - Real.cos x| ≤ e ∧ |sinF x - Real.sin x| ≤ e

/-- `std::tan` has a relative error of at most `2 u`, that is one unit in the last place. (PerspectiveBuilder.hpp:54.) -/
def IsTan (u : ℝ) (tanF : ℝ → ℝ) : Prop := ∀ x, |tanF x - Real.tan x| ≤ 2 * u * |Real.tan x|

/-- The product of matrices of floats with the error bound of C82. (Matrix/Arithmetic.hpp:185-191.) -/
def IsMatMul (u : ℝ) (n : ℕ) (mul : Matrix (Fin n) (Fin n) ℝ → Matrix (Fin n) (Fin n) ℝ → Matrix (Fin n) (Fin n) ℝ) : Prop :=
  ∀ A B i j, |mul A B i j - ∑ q, A i q * B q j| ≤ ((1 + u) ^ n - 1) * ∑ q, |A i q * B q j|

/-! ## Rotations -/

/-- `Rotation2DBuilder::Set` — Rotation2DBuilder.hpp:53-69. -/
noncomputable def rotation2D (cast cosF sinF : ℝ → ℝ) (o : Order) (r c : ℕ) (angle : ℝ) : Matrix (Fin r) (Fin c) ℝ :=
  let m := identityMat r c
  let C := cosF angle
  let S := sinF angle
  let m := elemF o 0 0 (cast C) m
  let m := elemF o 0 1 (cast S) m
  let m := elemF o 1 0 (cast (-S)) m
  elemF o 1 1 (cast C) m

/-- `RotationMatrixSingleAxis` — Rotation3DBuilder.hpp:23-59; the callers convert the angle (:101-119, 176-178). -/
noncomputable def rotationSingleAxis (conv cosF sinF : ℝ → ℝ) (o : Order) (r c : ℕ) (angle : ℝ) (axis : ℤ) : Option (Matrix (Fin r) (Fin c) ℝ) :=
  if 0 ≤ axis ∧ axis < 3 then
    let m := identityMat r c
    let C := cosF (conv angle)
    let S := sinF (conv angle)
    some <|
      if axis = 0 then elemF o 2 2 C (elemF o 2 1 (-S) (elemF o 1 2 S (elemF o 1 1 C m)))
      else if axis = 1 then elemF o 2 2 C (elemF o 2 0 S (elemF o 0 2 (-S) (elemF o 0 0 C m)))
      else elemF o 1 1 C (elemF o 1 0 (-S) (elemF o 0 1 S (elemF o 0 0 C m)))
  else none

/-- `RotationMatrixAxisAngle` — Rotation3DBuilder.hpp:62-83. -/
noncomputable def rotationMatrixAxisAngle (fl : ℝ → ℝ) (ps : ℝ → ℝ → ℝ → ℝ → ℝ) (madd : ℝ → ℝ → ℝ → ℝ) (conv cosF sinF : ℝ → ℝ) (o : Order) (r c : ℕ)
    (axis : Fin 3 → ℝ) (angle : ℝ) : Matrix (Fin r) (Fin c) ℝ :=
  let C := cosF (conv angle)
  let S := sinF (conv angle)
  let cross : Matrix (Fin 3) (Fin 3) ℝ := !![0, -axis 2, axis 1; axis 2, 0, -axis 0; -axis 1, axis 0, 0]
  let rot : Matrix (Fin 3) (Fin 3) ℝ := Matrix.of fun i j =>
    madd (fl (fl (1 - C) * axis i)) (axis j) (ps C (identityMat 3 3 i j) S (cross i j))
  insertAt 0 0 (fromPrecede o rot) (identityMat r c)

open Classical in
/-- `RotationAxisAngle(axis, angle)` converted to a matrix — Rotation3DBuilder.hpp:196-214, 310-314; `len` is `Length`, `none` the failed assertion. -/
noncomputable def rotationAxisAngle (fl : ℝ → ℝ) (ps : ℝ → ℝ → ℝ → ℝ → ℝ) (madd : ℝ → ℝ → ℝ → ℝ) (conv cosF sinF : ℝ → ℝ) (len : (Fin 3 → ℝ) → ℝ)
    (o : Order) (r c : ℕ) (axis : Fin 3 → ℝ) (angle : ℝ) : Option (Matrix (Fin r) (Fin c) ℝ) :=
  if |fl (1 - len axis)| < fl 0.05 then some (rotationMatrixAxisAngle fl ps madd conv cosF sinF o r c axis angle) else none

/-- `RotationQuaternionAxisAngle` — Rotation3DBuilder.hpp:86-92. -/
noncomputable def rotationQuatAxisAngle (fl conv cosF sinF : ℝ → ℝ) (l : QLayout) (axis : Fin 3 → ℝ) (angle : ℝ) : Quat ℝ l :=
  Quat.ofParts l (cosF (fl (conv angle / 2))) (fun i => fl (sinF (fl (conv angle / 2)) * axis i))

/-- The product in `Rotation3DTriAxisBuilder::Make` — Rotation3DBuilder.hpp:179. -/
noncomputable def triProduct (mul : Matrix (Fin 3) (Fin 3) ℝ → Matrix (Fin 3) (Fin 3) ℝ → Matrix (Fin 3) (Fin 3) ℝ) (o : Order)
    (r0 r1 r2 : Matrix (Fin 3) (Fin 3) ℝ) : Matrix (Fin 3) (Fin 3) ℝ :=
  match o with
  | .follow => mul (mul r0 r1) r2
  | .precede => mul (mul r2 r1) r0

/-- `Rotation3DTriAxisBuilder::Make` — Rotation3DBuilder.hpp:174-183. -/
noncomputable def rotationTriAxis (conv cosF sinF : ℝ → ℝ) (mul : Matrix (Fin 3) (Fin 3) ℝ → Matrix (Fin 3) (Fin 3) ℝ → Matrix (Fin 3) (Fin 3) ℝ)
    (o : Order) (r c : ℕ) (angles : Fin 3 → ℝ) (axes : Fin 3 → ℤ) : Option (Matrix (Fin r) (Fin c) ℝ) :=
  (rotationSingleAxis conv cosF sinF o 3 3 (angles 0) (axes 0)).bind fun r0 =>
  (rotationSingleAxis conv cosF sinF o 3 3 (angles 1) (axes 1)).bind fun r1 =>
  (rotationSingleAxis conv cosF sinF o 3 3 (angles 2) (axes 2)).bind fun r2 =>
  some (insertAt 0 0 (triProduct mul o r0 r1 r2) (identityMat r c))

/-- The quaternion conversion of `Rotation3DTriAxisBuilder` — Rotation3DBuilder.hpp:159-171. -/
noncomputable def rotationTriAxisQ (fl conv cosF sinF : ℝ → ℝ) (l : QLayout) (angles : Fin 3 → ℝ) (axes : Fin 3 → ℤ) : Option (Quat ℝ l) :=
  (unitAxis (axes 0)).bind fun vec0 =>
  (unitAxis (axes 1)).bind fun vec1 =>
  (unitAxis (axes 2)).bind fun vec2 =>
  let r0 := rotationQuatAxisAngle fl conv cosF sinF l vec0 (angles 0)
  let r1 := rotationQuatAxisAngle fl conv cosF sinF l vec1 (angles 1)
  let r2 := rotationQuatAxisAngle fl conv cosF sinF l vec2 (angles 2)
  some (qmul fl (qmul fl r2 r1) r0)

/-! ## Projections -/

open Classical in
/-- `OrthographicBuilder::Set` — OrthographicBuilder.hpp:49-62, `Dim = n + 1`; `none` is a division by zero. -/
noncomputable def orthographic {n : ℕ} (fl cast : ℝ → ℝ) (madd : ℝ → ℝ → ℝ → ℝ) (o : Order) (r c : ℕ) (minB maxB : Fin (n + 1) → ℝ)
    (projNear projFar : ℝ) : Option (Matrix (Fin r) (Fin c) ℝ) :=
  let volumeSize := fun i => fl (maxB i - minB i)
  if ∃ i, volumeSize i = 0 then none
  else
    let scale := fun i => fl (2 / volumeSize i)
    let scale := Function.update scale (Fin.last n) (fl (scale (Fin.last n) * fl (1 / 2 * fl (projFar - projNear))))
    let half := fun i => fl (-fl (maxB i + minB i) / 2)
    let offset := fun i => fl (half i * scale i)
    let offset := Function.update offset (Fin.last n) (madd (half (Fin.last n)) (scale (Fin.last n)) (fl (fl (projFar + projNear) / 2)))
    some <| forUp (n + 1) 0 (fun i m =>
      elemF o (n + 1) i.val (cast (offset i)) (setAt i.val i.val (cast (scale i)) m)) (identityMat r c)

open Classical in
/-- `PerspectiveBuilder::Set` — PerspectiveBuilder.hpp:34-66, `Dim = n + 2`; all arguments have already the type of the elements. `none` is the failed
assertion or a division by zero. -/
noncomputable def perspective {n : ℕ} (fl tanF : ℝ → ℝ) (pd : ℝ → ℝ → ℝ → ℝ → ℝ) (o : Order) (r c : ℕ) (fovX : ℝ) (ratios : Fin (n + 1) → ℝ)
    (nearPlane farPlane projNear projFar : ℝ) : Option (Matrix (Fin r) (Fin c) ℝ) :=
  if (nearPlane < 0 ∧ farPlane < nearPlane) ∨ (0 < nearPlane ∧ nearPlane < farPlane) then
    let absFovX := |fovX|
    let N := nearPlane
    let F := farPlane
    let n' := projNear
    let f := projFar
    let C : ℝ := if nearPlane < 0 then -1 else 1
    let A := fl (fl (C * pd f F n' N) / fl (F - N))
    let B := fl (fl (fl (fl (C * F) * N) * fl (n' - f)) / fl (F - N))
    let w := tanF (fl (1 / 2 * absFovX))
    if w = 0 ∨ ∃ i, ratios i = 0 then none
    else
      let adjRatios := fun i => fl (ratios 0 / ratios i)
      let adjRatios := fun i => fl (adjRatios i / w)
      let m := zeroMat r c
      let m := forUp (n + 1) 0 (fun i m => setAt i.val i.val (adjRatios i) m) m
      let m := setAt (r - 2) (c - 2) A m
      let BC := match o with
        | .follow => (C, B)
        | .precede => (B, C)
      let m := setAt (r - 2) (c - 1) BC.1 m
      some (setAt (r - 1) (c - 2) BC.2 m)
  else none

/-! ## Shear -/

/-- `ShearMatrixGeneral` — ShearBuilder.hpp:17-30. -/
noncomputable def shearGeneral {n : ℕ} (fl : ℝ → ℝ) (madd : ℝ → ℝ → ℝ → ℝ) (o : Order) (r c : ℕ) (slope : ℝ) (dir mod : Fin n → ℝ) :
    Matrix (Fin r) (Fin c) ℝ :=
  let shear : Matrix (Fin n) (Fin n) ℝ := Matrix.of fun i j => madd (fl (slope * dir i)) (mod j) (identityMat n n i j)
  insertAt 0 0 (fromPrecede o shear) (identityMat r c)

end Mathter.Fl
