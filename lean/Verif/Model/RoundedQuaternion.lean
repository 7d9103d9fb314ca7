import Verif.Model.Quaternion
import Verif.Model.RoundedReduce

/-!
# Rounded evaluation of quaternion products, inverses and rotations

The floating-point operations of `operator*`, `Conj`, `Inverse` and `operator()` of quaternions (`include/Mathter/Quaternion`) with a rounding `fl` after
every operation. `fl` has no overflow or underflow.
-/

namespace Mathter.Fl
variable {l l1 l2 : QLayout} {n : ℕ}

/-- `a * b` of two vectors of floats, element by element — Vector/Arithmetic.hpp:51-55, 138 (C02). -/
noncomputable def vmul (fl : ℝ → ℝ) (a b : Fin n → ℝ) : Fin n → ℝ := fun t => fl (a t * b t)

/-- `a + b` of two vectors of floats, element by element — Vector/Arithmetic.hpp:51-55, 140 (C02). -/
noncomputable def vadd (fl : ℝ → ℝ) (a b : Fin n → ℝ) : Fin n → ℝ := fun t => fl (a t + b t)

/-- `impl::Multiply`, `operator*` — Quaternion/Arithmetic.hpp:15-47, 71-75. -/
noncomputable def qmul (fl : ℝ → ℝ) (lhs : Quat ℝ l1) (rhs : Quat ℝ l2) : Quat ℝ l1 :=
  let lhsv := lhs.canonical
  let rhsv := rhs.canonical
  let s1 : Fin 4 → ℝ := ![-1, 1, -1, 1]
  let s2 : Fin 4 → ℝ := ![-1, 1, 1, -1]
  let s3 : Fin 4 → ℝ := ![-1, -1, 1, 1]
  let t0 := sw lhsv ![0, 0, 0, 0]
  let t1 := sw rhsv ![0, 1, 2, 3]
  let t2 := sw lhsv ![1, 1, 1, 1]
  let t3 := sw rhsv ![1, 0, 3, 2]
  let t4 := sw lhsv ![2, 2, 2, 2]
  let t5 := sw rhsv ![2, 3, 0, 1]
  let t6 := sw lhsv ![3, 3, 3, 3]
  let t7 := sw rhsv ![3, 2, 1, 0]
  let m0 := vmul fl t0 t1
  let m1 := vmul fl (vmul fl s1 t2) t3
  let m2 := vmul fl (vmul fl s2 t4) t5
  let m3 := vmul fl (vmul fl s3 t6) t7
  Quat.ofCanonical l1 (vadd fl (vadd fl (vadd fl m0 m1) m2) m3)

/-- `Conj(q)` — Quaternion/Math.hpp:77-82. -/
noncomputable def qconj (fl : ℝ → ℝ) (q : Quat ℝ l) : Quat ℝ l := Quat.ofCanonical l (vmul fl q.canonical ![1, -1, -1, -1])

/-- `LengthSquared(q)` — Quaternion/Math.hpp:33-36: of the vector of the elements. -/
noncomputable def qlengthSquared (c : Cfg) (p : Bool) (fl : ℝ → ℝ) (conv : Bool) (tb : RTree (batchSize 4 false)) (ts : RTree (4 + 1)) (q : Quat ℝ l) : ℝ :=
  lengthSquared fl conv tb ts (Vec.ofFn q.elements : Vec c ℝ 4 p)

open Classical in
/-- `Inverse(q)` — Quaternion/Math.hpp:121-126; `none` is the failed assertion. -/
noncomputable def qinverse (c : Cfg) (p : Bool) (fl : ℝ → ℝ) (conv : Bool) (tb : RTree (batchSize 4 false)) (ts : RTree (4 + 1)) (q : Quat ℝ l) :
    Option (Quat ℝ l) :=
  if qlengthSquared c p fl conv tb ts q = 0 then none
  else some ⟨fun t => fl ((qconj fl q).elements t / qlengthSquared c p fl conv tb ts q)⟩

/-- `q(v)` — Quaternion/RotationArithmetic.hpp:19-26. -/
noncomputable def qrotate (c : Cfg) (p : Bool) (fl : ℝ → ℝ) (conv : Bool) (tb : RTree (batchSize 4 false)) (ts : RTree (4 + 1)) (q : Quat ℝ l)
    (v : Fin 3 → ℝ) : Option (Fin 3 → ℝ) :=
  (qinverse c p fl conv tb ts q).map fun qi => (qmul fl (qmul fl q (Quat.ofVec l v)) qi).vec

end Mathter.Fl
