import Verif.Model.Ieee
import Verif.Model.Quaternion

/-!
# Quaternions of floating-point values with infinities and NaN

The floating-point operations of `operator*`, `Conj`, `Inverse`, `Normalize` and `operator()` of quaternions (`include/Mathter/Quaternion`) on all values
of the element type. `fl` rounds and may return an infinity. The sign of a zero is not part of the model.
-/

namespace Mathter.Ie
variable {l l1 l2 : QLayout} {n : ℕ}

/-- `a * b` of two vectors, element by element — Vector/Arithmetic.hpp:51-55, 138 (C02). -/
noncomputable def qvmul (fl : ℝ → Fx) (a b : Fin n → Fx) : Fin n → Fx := fun t => Fx.mul fl (a t) (b t)

/-- `a + b` of two vectors, element by element — Vector/Arithmetic.hpp:51-55, 140 (C02). -/
noncomputable def qvadd (fl : ℝ → Fx) (a b : Fin n → Fx) : Fin n → Fx := fun t => Fx.add fl (a t) (b t)

/-- `impl::Multiply`, `operator*` — Quaternion/Arithmetic.hpp:15-47, 71-75. -/
noncomputable def qmul (fl : ℝ → Fx) (lhs : Quat Fx l1) (rhs : Quat Fx l2) : Quat Fx l1 :=
  let lhsv := lhs.canonical
  let rhsv := rhs.canonical
  let s1 : Fin 4 → Fx := ![.fin (-1), .fin 1, .fin (-1), .fin 1]
  let s2 : Fin 4 → Fx := ![.fin (-1), .fin 1, .fin 1, .fin (-1)]
  let s3 : Fin 4 → Fx := ![.fin (-1), .fin (-1), .fin 1, .fin 1]
  let t0 := sw lhsv ![0, 0, 0, 0]
  let t1 := sw rhsv ![0, 1, 2, 3]
  let t2 := sw lhsv ![1, 1, 1, 1]
  let t3 := sw rhsv ![1, 0, 3, 2]
  let t4 := sw lhsv ![2, 2, 2, 2]
  let t5 := sw rhsv ![2, 3, 0, 1]
  let t6 := sw lhsv ![3, 3, 3, 3]
  let t7 := sw rhsv ![3, 2, 1, 0]
  let m0 := qvmul fl t0 t1
  let m1 := qvmul fl (qvmul fl s1 t2) t3
  let m2 := qvmul fl (qvmul fl s2 t4) t5
  let m3 := qvmul fl (qvmul fl s3 t6) t7
  Quat.ofCanonical l1 (qvadd fl (qvadd fl (qvadd fl m0 m1) m2) m3)

/-- `Conj(q)` — Quaternion/Math.hpp:77-82. -/
noncomputable def qconj (fl : ℝ → Fx) (q : Quat Fx l) : Quat Fx l :=
  Quat.ofCanonical l (qvmul fl q.canonical ![.fin 1, .fin (-1), .fin (-1), .fin (-1)])

/-- `LengthSquared(q)` — Quaternion/Math.hpp:33-36, Vector/Math.hpp:190-194: of the vector of the elements. -/
noncomputable def qlengthSquared (c : Cfg) (p : Bool) (fl : ℝ → Fx) (conv : Bool) (tb : RTree (batchSize 4 false)) (ts : RTree (4 + 1)) (q : Quat Fx l) : Fx :=
  dot fl conv tb ts (Vec.ofFn q.elements : Vec c Fx 4 p) (Vec.ofFn q.elements : Vec c Fx 4 p)

/-- `Inverse(q)` — Quaternion/Math.hpp:121-126; `none` is the failed assertion. -/
noncomputable def qinverse (c : Cfg) (p : Bool) (fl : ℝ → Fx) (conv : Bool) (tb : RTree (batchSize 4 false)) (ts : RTree (4 + 1)) (q : Quat Fx l) :
    Option (Quat Fx l) :=
  if qlengthSquared c p fl conv tb ts q == .fin 0 then none
  else some ⟨fun t => Fx.div fl ((qconj fl q).elements t) (qlengthSquared c p fl conv tb ts q)⟩

/-- `Normalize(q)` — Quaternion/Math.hpp:57-60; `none` is the failed assertion of Vector/Math.hpp:236. -/
noncomputable def qnormalize (c : Cfg) (p : Bool) (fl : ℝ → Fx) (conv : Bool) (tb : RTree (batchSize 4 false)) (ts : RTree (4 + 1)) (q : Quat Fx l) :
    Option (Quat Fx l) :=
  (normalize fl conv tb ts (Vec.ofFn q.elements : Vec c Fx 4 p)).map fun w => ⟨w.get⟩

/-- `q(v)` — Quaternion/RotationArithmetic.hpp:19-26. -/
noncomputable def qrotate (c : Cfg) (p : Bool) (fl : ℝ → Fx) (conv : Bool) (tb : RTree (batchSize 4 false)) (ts : RTree (4 + 1)) (q : Quat Fx l)
    (v : Fin 3 → Fx) : Option (Fin 3 → Fx) :=
  (qinverse c p fl conv tb ts q).map fun qi => (qmul fl (qmul fl q (Quat.ofVec l v)) qi).vec

end Mathter.Ie
