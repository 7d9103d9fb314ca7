import Mathlib.Analysis.SpecialFunctions.Trigonometric.Inverse
import Mathlib.Analysis.SpecialFunctions.Complex.Arg
import Verif.Model.VectorMath

/-!
# Quaternions

Models `include/Mathter/Quaternion/*.hpp`. A quaternion is the array of its four elements in storage order together with its layout;
the vector of a four-dimensional quaternion has no padding elements, so packing is invisible here (C01). Arithmetic is over any
commutative ring; the functions of `Math.hpp` are over ℝ in exact arithmetic.
-/

namespace Mathter
universe u
variable {K : Type u}

/-- `eQuaternionLayout` — Common/Types.hpp:45-48. -/
inductive QLayout | scalarFirst | vectorFirst
deriving DecidableEq

/-- `scalarIdx, vectorIdxI, vectorIdxJ, vectorIdxK`: the swizzle `canonical` — Quaternion/Quaternion.hpp:33-36, 52. -/
def canonIdx : QLayout → Fin 4 → Fin 4
  | .scalarFirst => ![0, 1, 2, 3]
  | .vectorFirst => ![3, 0, 1, 2]

/-- `Quaternion<T, Layout, Packed>` — Quaternion/Quaternion.hpp:31-41. -/
@[ext] structure Quat (K : Type u) (l : QLayout) where
  elements : Fin 4 → K

namespace Quat
variable {l l1 l2 : QLayout}

/-- `Vector(q.canonical)` — Quaternion/Quaternion.hpp:52, Swizzle.hpp:118-140 (C05). -/
def canonical (q : Quat K l) : Fin 4 → K := sw q.elements (canonIdx l)

/-- `q.canonical = v` — assignment to a swizzle writes element after element (C06). Swizzle.hpp:143-170. -/
def setCanonical (q : Quat K l) (v : Fin 4 → K) : Quat K l :=
  ⟨forUp 4 0 (fun i e => Function.update e (canonIdx l i) (v i)) q.elements⟩

/-- `Quaternion(canonicalArg, v)` — Quaternion/Quaternion.hpp:184-188. The uninitialised elements are taken as 0; C44 shows that they do
not matter. -/
def ofCanonical [Zero K] (l : QLayout) (v : Fin 4 → K) : Quat K l := setCanonical ⟨fun _ => 0⟩ v

/-- The members `s`/`w`/`scalar` — Quaternion/Quaternion.hpp:42, 46, 50. -/
def s (q : Quat K l) : K := q.elements (canonIdx l 0)
/-- The members `i`/`x` — Quaternion/Quaternion.hpp:43, 47. -/
def i (q : Quat K l) : K := q.elements (canonIdx l 1)
/-- The members `j`/`y` — Quaternion/Quaternion.hpp:44, 48. -/
def j (q : Quat K l) : K := q.elements (canonIdx l 2)
/-- The members `k`/`z` — Quaternion/Quaternion.hpp:45, 49. -/
def k (q : Quat K l) : K := q.elements (canonIdx l 3)

/-- `Vector(q.vector)` — Quaternion/Quaternion.hpp:51. -/
def vec (q : Quat K l) : Fin 3 → K := sw q.elements fun t => canonIdx l t.succ

/-- `Quaternion(scalar, x, y, z)` — Quaternion/Quaternion.hpp:198-201. -/
def mk4 [Zero K] (l : QLayout) (s x y z : K) : Quat K l := ofCanonical l ![s, x, y, z]

/-- `Quaternion(scalar, vector)` — Quaternion/Quaternion.hpp:204-207. -/
def ofParts [Zero K] (l : QLayout) (s : K) (v : Fin 3 → K) : Quat K l := ofCanonical l (Fin.cons s v)

/-- `Quaternion(vector)` — Quaternion/Quaternion.hpp:210-213. -/
def ofVec [Zero K] (l : QLayout) (v : Fin 3 → K) : Quat K l := ofCanonical l (Fin.cons 0 v)

/-- Converting constructor — Quaternion/Quaternion.hpp:191-195. -/
def convert [Zero K] (l2 : QLayout) (q : Quat K l1) : Quat K l2 := ofCanonical l2 q.canonical

/-- `operator==` — Quaternion/Comparison.hpp:12-16. -/
def eq [DecidableEq K] (p : Quat K l1) (q : Quat K l2) : Bool := decide (p.canonical = q.canonical)

section ring
variable [CommRing K]

/-- `impl::Multiply`, `operator*` — Quaternion/Arithmetic.hpp:15-47, 71-75. -/
def mul (lhs : Quat K l1) (rhs : Quat K l2) : Quat K l1 :=
  let lhsv := lhs.canonical
  let rhsv := rhs.canonical
  let s1 : Fin 4 → K := ![-1, 1, -1, 1]
  let s2 : Fin 4 → K := ![-1, 1, 1, -1]
  let s3 : Fin 4 → K := ![-1, -1, 1, 1]
  let t0 := sw lhsv ![0, 0, 0, 0]
  let t1 := sw rhsv ![0, 1, 2, 3]
  let t2 := sw lhsv ![1, 1, 1, 1]
  let t3 := sw rhsv ![1, 0, 3, 2]
  let t4 := sw lhsv ![2, 2, 2, 2]
  let t5 := sw rhsv ![2, 3, 0, 1]
  let t6 := sw lhsv ![3, 3, 3, 3]
  let t7 := sw rhsv ![3, 2, 1, 0]
  let m0 := t0 * t1
  let m1 := s1 * t2 * t3
  let m2 := s2 * t4 * t5
  let m3 := s3 * t6 * t7
  ofCanonical l1 (m0 + m1 + m2 + m3)

/-- `operator+` — Quaternion/Arithmetic.hpp:55-60. -/
def add (lhs : Quat K l1) (rhs : Quat K l2) : Quat K l1 := ofCanonical l1 (lhs.canonical + rhs.canonical)

/-- `operator-` — Quaternion/Arithmetic.hpp:63-68. -/
def sub (lhs : Quat K l1) (rhs : Quat K l2) : Quat K l1 := ofCanonical l1 (lhs.canonical - rhs.canonical)

/-- `operator*(Quaternion, scalar)` — Quaternion/Arithmetic.hpp:123-129. -/
def mulScalar (q : Quat K l) (a : K) : Quat K l := ⟨fun t => q.elements t * a⟩

/-- `operator*(scalar, Quaternion)` — Quaternion/Arithmetic.hpp:160-166. -/
def scalarMul (a : K) (q : Quat K l) : Quat K l := ⟨fun t => a * q.elements t⟩

/-- `operator+(Quaternion, scalar)` — Quaternion/Arithmetic.hpp:107-112. -/
def addScalar (q : Quat K l) (a : K) : Quat K l := add q (mk4 l a 0 0 0)

/-- `operator-(Quaternion, scalar)` — Quaternion/Arithmetic.hpp:115-120. -/
def subScalar (q : Quat K l) (a : K) : Quat K l := sub q (mk4 l a 0 0 0)

/-- `operator+(scalar, Quaternion)` — Quaternion/Arithmetic.hpp:144-149. `conv` is the conversion of the scalar to the quaternion's
element type. -/
def scalarAdd {K' : Type*} (conv : K' → K) (a : K') (q : Quat K l) : Quat K l := add (mk4 l (conv a) 0 0 0) q

/-- `operator-(scalar, Quaternion)` — Quaternion/Arithmetic.hpp:152-157. -/
def scalarSub {K' : Type*} (conv : K' → K) (a : K') (q : Quat K l) : Quat K l := sub (mk4 l (conv a) 0 0 0) q

/-- `Conj(q)` — Quaternion/Math.hpp:77-82. -/
def conj (q : Quat K l) : Quat K l := ofCanonical l (q.canonical * ![1, -1, -1, -1])

end ring

/-- `operator/(Quaternion, scalar)` — Quaternion/Arithmetic.hpp:132-138 (the divisor is not zero where it is used). -/
def divScalar [Field K] (q : Quat K l) (a : K) : Quat K l := ⟨fun t => q.elements t / a⟩

/-! ## Math.hpp, over ℝ -/

/-- `LengthSquared(q)` — Quaternion/Math.hpp:33-36. -/
noncomputable def qLengthSquared (q : Quat ℝ l) : ℝ := lengthSquared q.elements

/-- `Length(q)` — Quaternion/Math.hpp:41-44. -/
noncomputable def qLength (q : Quat ℝ l) : ℝ := length q.elements

/-- `LengthPrecise(q)`, `Abs(q)` — Quaternion/Math.hpp:49-52, 70-73. -/
noncomputable def qLengthPrecise (lo hi : ℝ) (q : Quat ℝ l) : ℝ := lengthPrecise lo hi q.elements

/-- `Normalize(q)` — Quaternion/Math.hpp:56-59. -/
noncomputable def qNormalize (q : Quat ℝ l) : Option (Quat ℝ l) := (normalize q.elements).map Quat.mk

/-- `NormalizePrecise(q)` — Quaternion/Math.hpp:63-66. -/
noncomputable def qNormalizePrecise (q : Quat ℝ l) : Quat ℝ l := ⟨normalizePrecise q.elements (mk4 l (1 : ℝ) 0 0 0).elements⟩

open Classical in
/-- `Inverse(q)` — Quaternion/Math.hpp:121-126; `none` is the failed assertion. -/
noncomputable def inverse (q : Quat ℝ l) : Option (Quat ℝ l) :=
  if q.qLengthSquared = 0 then none else some (divScalar (conj q) q.qLengthSquared)

/-- `q(v)` and the deprecated `q * v`, `v * q`, `v *= q` — Quaternion/RotationArithmetic.hpp:19-59. -/
noncomputable def rotate (q : Quat ℝ l) (v : Fin 3 → ℝ) : Option (Fin 3 → ℝ) :=
  (inverse q).map fun qi => (mul (mul q (ofVec l v)) qi).vec

/-- `Exp(q)` — Quaternion/Math.hpp:86-96. -/
noncomputable def exp (lo hi : ℝ) (q : Quat ℝ l) : Quat ℝ l :=
  let scalar := q.s
  let vector := q.vec
  let vectorLength := lengthPrecise lo hi vector
  let scalarExp := Real.exp scalar
  let vectorNormalized := normalizePrecise1 vector
  convert l (scalarMul scalarExp
    (ofParts .scalarFirst (Real.cos vectorLength) fun t => vectorNormalized t * Real.sin vectorLength))

open Classical in
/-- `Log(q)` — Quaternion/Math.hpp:100-110; `std::hypot(x, y)` is `sqrt(x² + y²)`; `none` is `0 / 0` and `log 0`. -/
noncomputable def log (lo hi : ℝ) (q : Quat ℝ l) : Option (Quat ℝ l) :=
  let scalar := q.s
  let vector := q.vec
  let vectorLength := lengthPrecise lo hi vector
  let quatLength := Real.sqrt (scalar ^ 2 + vectorLength ^ 2)
  let vectorNormalized := normalizePrecise1 vector
  if quatLength = 0 then none
  else some (ofParts l (Real.log quatLength) fun t => vectorNormalized t * Real.arccos (scalar / quatLength))

/-- `Pow(q, a)` — Quaternion/Math.hpp:114-117. -/
noncomputable def pow (lo hi : ℝ) (q : Quat ℝ l) (a : ℝ) : Option (Quat ℝ l) :=
  (log lo hi q).map fun g => exp lo hi (scalarMul a g)

/-- `std::atan2(y, x)`: the argument of `x + iy` in `(-π, π]`, 0 at the origin. (used in Quaternion/Math.hpp:18.) -/
noncomputable def atan2 (y x : ℝ) : ℝ := Complex.arg ⟨x, y⟩

/-- `Angle(q)` — Quaternion/Math.hpp:16-19. -/
noncomputable def angle (q : Quat ℝ l) : ℝ := 2 * atan2 (length q.vec) q.s

/-- `Axis(q)` — Quaternion/Math.hpp:24-27. -/
noncomputable def axis (q : Quat ℝ l) : Fin 3 → ℝ := normalizePrecise1 q.vec

end Quat

/-! ## Matrix conversions -/

/-- The lambda `elem` on the left of an assignment: `elem(i, j) = x` — Quaternion/Quaternion.hpp:134-136. -/
def setElem {r c : ℕ} (o : Order) (i j : ℕ) (x : K) (m : Matrix (Fin r) (Fin c) K) : Matrix (Fin r) (Fin c) K :=
  Matrix.of fun a b => match o with
  | .precede => if a.val = i ∧ b.val = j then x else m a b
  | .follow => if a.val = j ∧ b.val = i then x else m a b

/-- `impl::QuaternionToMatrix` and the conversion operator — Quaternion/Quaternion.hpp:130-153, 224-231; `m` is the uninitialised matrix. -/
def quatToMatrix [CommRing K] {l : QLayout} {r c : ℕ} (o : Order) (m : Matrix (Fin r) (Fin c) K) (q : Quat K l) :
    Matrix (Fin r) (Fin c) K :=
  let m := setElem o 0 0 (1 - 2 * (q.j * q.j + q.k * q.k)) m
  let m := setElem o 0 1 (2 * (q.i * q.j - q.k * q.s)) m
  let m := setElem o 0 2 (2 * (q.i * q.k + q.j * q.s)) m
  let m := setElem o 1 0 (2 * (q.i * q.j + q.k * q.s)) m
  let m := setElem o 1 1 (1 - 2 * (q.i * q.i + q.k * q.k)) m
  let m := setElem o 1 2 (2 * (q.j * q.k - q.i * q.s)) m
  let m := setElem o 2 0 (2 * (q.i * q.k - q.j * q.s)) m
  let m := setElem o 2 1 (2 * (q.j * q.k + q.i * q.s)) m
  let m := setElem o 2 2 (1 - 2 * (q.i * q.i + q.j * q.j)) m
  forUp c 0 (fun j m => forUp r (if j.val < 3 then 3 else 0) (fun i m =>
    Matrix.of fun a b => if a = i ∧ b = j then (if j.val = i.val then 1 else 0) else m a b) m) m

/-- The lambda `elem` of `MatrixToQuaternion` — Quaternion/Quaternion.hpp:159-161. -/
def getElem3 {r c : ℕ} (o : Order) (m : Matrix (Fin (r + 3)) (Fin (c + 3)) K) (i j : Fin 3) : K :=
  match o with
  | .precede => m (Fin.castLE (by omega) i) (Fin.castLE (by omega) j)
  | .follow => m (Fin.castLE (by omega) j) (Fin.castLE (by omega) i)

open Classical in
/-- The rest of `impl::MatrixToQuaternion` — Quaternion/Quaternion.hpp:162-168; `none` is the square root of a negative number or a
division by zero. -/
noncomputable def matrixToQuatElem (l : QLayout) (elem : Fin 3 → Fin 3 → ℝ) : Option (Quat ℝ l) :=
  let t := 1 + elem 0 0 + elem 1 1 + elem 2 2
  if t < 0 then none
  else
    let s := Real.sqrt t * 0.5
    if 4 * s = 0 then none
    else
      let div := 1 / (4 * s)
      let i := (elem 2 1 - elem 1 2) * div
      let j := (elem 0 2 - elem 2 0) * div
      let k := (elem 1 0 - elem 0 1) * div
      some (Quat.ofCanonical l ![s, i, j, k])

/-- `impl::MatrixToQuaternion` and the constructor — Quaternion/Quaternion.hpp:155-169, 216-221. -/
noncomputable def matrixToQuat {r c : ℕ} (o : Order) (l : QLayout) (m : Matrix (Fin (r + 3)) (Fin (c + 3)) ℝ) : Option (Quat ℝ l) :=
  matrixToQuatElem l (getElem3 o m)

end Mathter
