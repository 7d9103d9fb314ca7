import Verif.Model.Quaternion
import Verif.Model.RoundedSVD
import Verif.Model.RoundedDeterminant

/-!
# Rounded conversion between quaternions and matrices

The floating-point operations of `impl::QuaternionToMatrix` and `impl::MatrixToQuaternion` (`include/Mathter/Quaternion/Quaternion.hpp`) with a rounding `fl` after
every operation; `ps`, `pd`, `msub` may be fused; `cast` converts to the element type of the target. There is no overflow or underflow.
-/

namespace Mathter.Fl
variable {l : QLayout}

/-- `impl::QuaternionToMatrix` and the conversion operator — Quaternion/Quaternion.hpp:130-153, 224-231; `m` is the uninitialised matrix. -/
noncomputable def quatToMatrix (fl cast : ℝ → ℝ) (ps pd : ℝ → ℝ → ℝ → ℝ → ℝ) (msub : ℝ → ℝ → ℝ → ℝ) {r c : ℕ} (o : Order) (m : Matrix (Fin r) (Fin c) ℝ) (q : Quat ℝ l) :
    Matrix (Fin r) (Fin c) ℝ :=
  let m := setElem o 0 0 (cast (msub 1 2 (ps q.j q.j q.k q.k))) m
  let m := setElem o 0 1 (cast (fl (2 * pd q.i q.j q.k q.s))) m
  let m := setElem o 0 2 (cast (fl (2 * ps q.i q.k q.j q.s))) m
  let m := setElem o 1 0 (cast (fl (2 * ps q.i q.j q.k q.s))) m
  let m := setElem o 1 1 (cast (msub 1 2 (ps q.i q.i q.k q.k))) m
  let m := setElem o 1 2 (cast (fl (2 * pd q.j q.k q.i q.s))) m
  let m := setElem o 2 0 (cast (fl (2 * pd q.i q.k q.j q.s))) m
  let m := setElem o 2 1 (cast (fl (2 * ps q.j q.k q.i q.s))) m
  let m := setElem o 2 2 (cast (msub 1 2 (ps q.i q.i q.j q.j))) m
  forUp c 0 (fun j m => forUp r (if j.val < 3 then 3 else 0) (fun i m =>
    Matrix.of fun a b => if a = i ∧ b = j then (if j.val = i.val then 1 else 0) else m a b) m) m

open Classical in
/-- `impl::MatrixToQuaternion` and the constructor — Quaternion/Quaternion.hpp:155-169, 216-221; `none` is the square root of a negative number or a
division by zero. -/
noncomputable def matrixToQuat (fl cast : ℝ → ℝ) {r c : ℕ} (o : Order) (l : QLayout) (m : Matrix (Fin (r + 3)) (Fin (c + 3)) ℝ) : Option (Quat ℝ l) :=
  let elem := getElem3 o m
  let t := fl (fl (fl (1 + elem 0 0) + elem 1 1) + elem 2 2)
  if t < 0 then none
  else
    let s := fl (fl (Real.sqrt t) * 0.5)
    let d := fl (4 * s)
    if d = 0 then none
    else
      let div := fl (1 / d)
      let i := fl (fl (elem 2 1 - elem 1 2) * div)
      let j := fl (fl (elem 0 2 - elem 2 0) * div)
      let k := fl (fl (elem 1 0 - elem 0 1) * div)
      some (Quat.ofCanonical l ![cast s, cast i, cast j, cast k])

end Mathter.Fl
