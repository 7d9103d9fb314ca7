import Verif.Model.Determinant
import Verif.Model.RoundedReduce

/-!
# Rounded evaluation of the determinants and inverses of small matrices

`Determinant` and `Inverse` of dimensions 2, 3 and 4 (`include/Mathter/Matrix/Math.hpp`) with a rounding `fl` after every operation, for real element
types, without overflow or underflow. `pd a b c d` stands for the rounded `a * b - c * d`, `madd`, `msub` for a rounded `a * b + d`, `d - a * b` with a
product as operand: each may or may not be fused. `Sum` is the one of the storage level, with vectors of packing `p`. As in `Model/Determinant`,
functions named `…Stripes` take the array of stripes.
-/

namespace Mathter.Fl
variable {n : ℕ}

/-- The values of `a * b - c * d` that the compiler may produce: separate operations, or one of the products fused with the subtraction.
(used in Matrix/Math.hpp:168, 180, 333-335.) -/
def IsProdDiff (fl : ℝ → ℝ) (pd : ℝ → ℝ → ℝ → ℝ → ℝ) : Prop :=
  ∀ a b c d, pd a b c d = fl (fl (a * b) - fl (c * d)) ∨ pd a b c d = fl (a * b - fl (c * d)) ∨ pd a b c d = fl (fl (a * b) - c * d)

/-- `operator*(Vector, Vector)` element by element — Vector/Arithmetic.hpp:51-55, 142. -/
def stripeMul (fl : ℝ → ℝ) (a b : Fin n → ℝ) : Fin n → ℝ := fun i => fl (a i * b i)

/-- `a * b - c * d` of vectors, element by element. (used in Matrix/Math.hpp:180, 333-335.) -/
def vpd (pd : ℝ → ℝ → ℝ → ℝ → ℝ) (a b c d : Fin n → ℝ) : Fin n → ℝ := fun i => pd (a i) (b i) (c i) (d i)

/-- `Sum` of a temporary vector of packing `p` — Vector/Math.hpp:142-153. -/
noncomputable def vsum (c : Cfg) (p : Bool) (fl : ℝ → ℝ) (tb : RTree (batchSize n false)) (ts : RTree (n + 1)) (v : Fin n → ℝ) : ℝ :=
  sum fl tb ts (Vec.ofFn v : Vec c ℝ n p)

/-- `Determinant(Matrix<T, 2, 2>)` — Matrix/Math.hpp:166-169. -/
def det2 (pd : ℝ → ℝ → ℝ → ℝ → ℝ) (m : Matrix (Fin 2) (Fin 2) ℝ) : ℝ := pd (m 0 0) (m 1 1) (m 1 0) (m 0 1)

/-- `Determinant(Matrix<T, 3, 3>)` — Matrix/Math.hpp:172-183; also Matrix/Math.hpp:344. -/
noncomputable def det3Stripes (c : Cfg) (p : Bool) (fl : ℝ → ℝ) (pd : ℝ → ℝ → ℝ → ℝ → ℝ) (tb : RTree (batchSize 3 false)) (ts : RTree (3 + 1))
    (s : Fin 3 → Fin 3 → ℝ) : ℝ :=
  let r0_zyx := sw (s 0) ![2, 1, 0]
  let r1_xzy := sw (s 1) ![0, 2, 1]
  let r1_yxz := sw (s 1) ![1, 0, 2]
  let r2_yxz := sw (s 2) ![1, 0, 2]
  let r2_xzy := sw (s 2) ![0, 2, 1]
  vsum c p fl tb ts (stripeMul fl r0_zyx (vpd pd r1_xzy r2_yxz r1_yxz r2_xzy))

/-- `Determinant(Matrix<T, 4, 4>)` — Matrix/Math.hpp:186-228; also Matrix/Math.hpp:409-434. -/
noncomputable def det4Stripes (c : Cfg) (p : Bool) (fl : ℝ → ℝ) (pd : ℝ → ℝ → ℝ → ℝ → ℝ) (madd : ℝ → ℝ → ℝ → ℝ)
    (tb3 : RTree (batchSize 3 false)) (ts3 : RTree (3 + 1)) (tb4 : RTree (batchSize 4 false)) (ts4 : RTree (4 + 1)) (s : Fin 4 → Fin 4 → ℝ) : ℝ :=
  let evenPair : Fin 4 → ℝ := ![1, -1, -1, 1]
  let oddPair : Fin 4 → ℝ := ![-1, 1, 1, -1]
  let r0 := s 0
  let r1 := s 1
  let r2 := s 2
  let r3 := s 3
  let r2_zwzw := sw r2 ![2, 3, 2, 3]
  let r0_yyxx := sw r0 ![1, 1, 0, 0]
  let r1_wwxy := sw r1 ![3, 3, 0, 1]
  let r2_xyzz := sw r2 ![0, 1, 2, 2]
  let r3_wwww := sw r3 ![3, 3, 3, 3]
  let r1_zzxy := sw r1 ![2, 2, 0, 1]
  let r0_yxyx := sw r0 ![1, 0, 1, 0]
  let r3_xxyy := sw r3 ![0, 0, 1, 1]
  let r1_wzwz := sw r1 ![3, 2, 3, 2]
  let r2_xyww := sw r2 ![0, 1, 3, 3]
  let r3_zzzz := sw r3 ![2, 2, 2, 2]
  let r2_yxz := sw r2 ![1, 0, 2]
  let r3_xzy := sw r3 ![0, 2, 1]
  let r2_xzy := sw r2 ![0, 2, 1]
  let r3_yxz := sw r3 ![1, 0, 2]
  let r2_yxw := sw r2 ![1, 0, 3]
  let r1_zyx := sw r1 ![2, 1, 0]
  let r3_yxw := sw r3 ![1, 0, 3]
  let r2_xwy := sw r2 ![0, 3, 1]
  let r3_xwy := sw r3 ![0, 3, 1]
  let r1_wyx := sw r1 ![3, 1, 0]
  let r0_w := r0 3
  let r0_z := r0 2
  let s1 := vsum c p fl tb4 ts4 (stripeMul fl evenPair (stripeMul fl (stripeMul fl (stripeMul fl r0_yyxx r1_wzwz) r2_zwzw) r3_xxyy))
  let s2 := vsum c p fl tb4 ts4 (stripeMul fl oddPair (stripeMul fl (stripeMul fl (stripeMul fl r0_yxyx r1_wwxy) r2_xyww) r3_zzzz))
  let s3 := vsum c p fl tb4 ts4 (stripeMul fl evenPair (stripeMul fl (stripeMul fl (stripeMul fl r0_yxyx r1_zzxy) r2_xyzz) r3_wwww))
  madd r0_z (vsum c p fl tb3 ts3 (stripeMul fl r1_wyx (vpd pd r2_xwy r3_yxw r2_yxw r3_xwy)))
    (madd r0_w (vsum c p fl tb3 ts3 (stripeMul fl r1_zyx (vpd pd r2_yxz r3_xzy r2_xzy r3_yxz))) (fl (fl (s1 + s2) + s3)))

open Classical in
/-- `Inverse(Matrix<T, 2, 2>)` — Matrix/Math.hpp:297-311; `none` for a zero divisor. -/
noncomputable def inv2Stripes (fl : ℝ → ℝ) (pd : ℝ → ℝ → ℝ → ℝ → ℝ) (s : Fin 2 → Fin 2 → ℝ) : Option (Fin 2 → Fin 2 → ℝ) :=
  let det := pd (s 0 0) (s 1 1) (s 0 1) (s 1 0)
  if det = 0 then none else some fun i j => fl (cof2Stripes s i j / det)

/-- `result` of `Inverse(Matrix<T, 3, 3>)` before the final division — Matrix/Math.hpp:315-342. -/
def cof3Stripes (pd : ℝ → ℝ → ℝ → ℝ → ℝ) (s : Fin 3 → Fin 3 → ℝ) : Fin 3 → Fin 3 → ℝ :=
  let r0_zxy := sw (s 0) ![2, 0, 1]
  let r0_yzx := sw (s 0) ![1, 2, 0]
  let r1_yzx := sw (s 1) ![1, 2, 0]
  let r1_zxy := sw (s 1) ![2, 0, 1]
  let r2_zxy := sw (s 2) ![2, 0, 1]
  let r2_yzx := sw (s 2) ![1, 2, 0]
  let c0 := vpd pd r1_yzx r2_zxy r1_zxy r2_yzx
  let c1 := vpd pd r0_zxy r2_yzx r0_yzx r2_zxy
  let c2 := vpd pd r0_yzx r1_zxy r0_zxy r1_yzx
  let result : Fin 3 → Fin 3 → ℝ := ![![c0 0, c1 0, c2 0], ![c0 1, c1 1, c2 1], ![c0 2, c1 2, c2 2]]
  result

open Classical in
/-- `Inverse(Matrix<T, 3, 3>)` — Matrix/Math.hpp:315-347; `none` for a zero divisor. -/
noncomputable def inv3Stripes (c : Cfg) (p : Bool) (fl : ℝ → ℝ) (pd : ℝ → ℝ → ℝ → ℝ → ℝ) (tb : RTree (batchSize 3 false)) (ts : RTree (3 + 1))
    (s : Fin 3 → Fin 3 → ℝ) : Option (Fin 3 → Fin 3 → ℝ) :=
  let det := det3Stripes c p fl pd tb ts s
  if det = 0 then none else some fun i j => fl (cof3Stripes pd s i j / det)

/-- `sign * (a0 * b0 - a1 * b1 - a2 * b2 + a3 * b3 + a4 * b4 - a5 * b5)` of vectors, element by element. (used in Matrix/Math.hpp:393-396.) -/
def six (fl : ℝ → ℝ) (pd : ℝ → ℝ → ℝ → ℝ → ℝ) (madd msub : ℝ → ℝ → ℝ → ℝ) (sign a0 b0 a1 b1 a2 b2 a3 b3 a4 b4 a5 b5 : Fin 4 → ℝ) : Fin 4 → ℝ := fun i =>
  fl (sign i * msub (madd (a4 i) (b4 i) (madd (a3 i) (b3 i) (msub (pd (a0 i) (b0 i) (a1 i) (b1 i)) (a2 i) (b2 i)))) (a5 i) (b5 i))

/-- `result` of `Inverse(Matrix<T, 4, 4>)` before the final division — Matrix/Math.hpp:351-404. -/
def cof4Stripes (fl : ℝ → ℝ) (pd : ℝ → ℝ → ℝ → ℝ → ℝ) (madd msub : ℝ → ℝ → ℝ → ℝ) (s : Fin 4 → Fin 4 → ℝ) : Fin 4 → Fin 4 → ℝ :=
  let even : Fin 4 → ℝ := ![1, -1, 1, -1]
  let odd : Fin 4 → ℝ := ![-1, 1, -1, 1]
  let r0_wwwz := sw (s 0) ![3, 3, 3, 2]
  let r0_yxxx := sw (s 0) ![1, 0, 0, 0]
  let r0_zzyy := sw (s 0) ![2, 2, 1, 1]
  let r1_wwwz := sw (s 1) ![3, 3, 3, 2]
  let r1_yxxx := sw (s 1) ![1, 0, 0, 0]
  let r1_zzyy := sw (s 1) ![2, 2, 1, 1]
  let r2_wwwz := sw (s 2) ![3, 3, 3, 2]
  let r2_yxxx := sw (s 2) ![1, 0, 0, 0]
  let r2_zzyy := sw (s 2) ![2, 2, 1, 1]
  let r3_wwwz := sw (s 3) ![3, 3, 3, 2]
  let r3_yxxx := sw (s 3) ![1, 0, 0, 0]
  let r3_zzyy := sw (s 3) ![2, 2, 1, 1]
  let r0_wwwz_r1_yxxx := stripeMul fl r0_wwwz r1_yxxx
  let r0_wwwz_r1_zzyy := stripeMul fl r0_wwwz r1_zzyy
  let r0_yxxx_r1_wwwz := stripeMul fl r0_yxxx r1_wwwz
  let r0_yxxx_r1_zzyy := stripeMul fl r0_yxxx r1_zzyy
  let r0_zzyy_r1_wwwz := stripeMul fl r0_zzyy r1_wwwz
  let r0_zzyy_r1_yxxx := stripeMul fl r0_zzyy r1_yxxx
  let r2_wwwz_r3_yxxx := stripeMul fl r2_wwwz r3_yxxx
  let r2_wwwz_r3_zzyy := stripeMul fl r2_wwwz r3_zzyy
  let r2_yxxx_r3_wwwz := stripeMul fl r2_yxxx r3_wwwz
  let r2_yxxx_r3_zzyy := stripeMul fl r2_yxxx r3_zzyy
  let r2_zzyy_r3_wwwz := stripeMul fl r2_zzyy r3_wwwz
  let r2_zzyy_r3_yxxx := stripeMul fl r2_zzyy r3_yxxx
  let c0 := six fl pd madd msub odd r1_wwwz r2_zzyy_r3_yxxx r1_zzyy r2_wwwz_r3_yxxx r1_wwwz r2_yxxx_r3_zzyy
    r1_yxxx r2_wwwz_r3_zzyy r1_zzyy r2_yxxx_r3_wwwz r1_yxxx r2_zzyy_r3_wwwz
  let c1 := six fl pd madd msub even r0_wwwz r2_zzyy_r3_yxxx r0_zzyy r2_wwwz_r3_yxxx r0_wwwz r2_yxxx_r3_zzyy
    r0_yxxx r2_wwwz_r3_zzyy r0_zzyy r2_yxxx_r3_wwwz r0_yxxx r2_zzyy_r3_wwwz
  let c2 := six fl pd madd msub odd r0_wwwz_r1_zzyy r3_yxxx r0_zzyy_r1_wwwz r3_yxxx r0_wwwz_r1_yxxx r3_zzyy
    r0_yxxx_r1_wwwz r3_zzyy r0_zzyy_r1_yxxx r3_wwwz r0_yxxx_r1_zzyy r3_wwwz
  let c3 := six fl pd madd msub even r0_wwwz_r1_zzyy r2_yxxx r0_zzyy_r1_wwwz r2_yxxx r0_wwwz_r1_yxxx r2_zzyy
    r0_yxxx_r1_wwwz r2_zzyy r0_zzyy_r1_yxxx r2_wwwz r0_yxxx_r1_zzyy r2_wwwz
  let result : Fin 4 → Fin 4 → ℝ :=
    ![![c0 0, c1 0, c2 0, c3 0], ![c0 1, c1 1, c2 1, c3 1], ![c0 2, c1 2, c2 2, c3 2], ![c0 3, c1 3, c2 3, c3 3]]
  result

open Classical in
/-- `Inverse(Matrix<T, 4, 4>)` — Matrix/Math.hpp:351-436; `none` for a zero divisor. -/
noncomputable def inv4Stripes (c : Cfg) (p : Bool) (fl : ℝ → ℝ) (pd : ℝ → ℝ → ℝ → ℝ → ℝ) (madd msub : ℝ → ℝ → ℝ → ℝ)
    (tb3 : RTree (batchSize 3 false)) (ts3 : RTree (3 + 1)) (tb4 : RTree (batchSize 4 false)) (ts4 : RTree (4 + 1)) (s : Fin 4 → Fin 4 → ℝ) :
    Option (Fin 4 → Fin 4 → ℝ) :=
  let det := det4Stripes c p fl pd madd tb3 ts3 tb4 ts4 s
  if det = 0 then none else some fun i j => fl (cof4Stripes fl pd madd msub s i j / det)

/-- `Inverse` of dimension 2 for a matrix of layout `L`: stripes in, stripes out. (Matrix/Math.hpp:298-312.) -/
noncomputable def inv2 (fl : ℝ → ℝ) (pd : ℝ → ℝ → ℝ → ℝ → ℝ) (L : Layout) (m : Matrix (Fin 2) (Fin 2) ℝ) : Option (Matrix (Fin 2) (Fin 2) ℝ) :=
  (inv2Stripes fl pd (stripesOf L m)).map fun r => stripesOf L (Matrix.of r)

/-- `Inverse` of dimension 3 for a matrix of layout `L`. (Matrix/Math.hpp:316-347.) -/
noncomputable def inv3 (c : Cfg) (p : Bool) (fl : ℝ → ℝ) (pd : ℝ → ℝ → ℝ → ℝ → ℝ) (tb : RTree (batchSize 3 false)) (ts : RTree (3 + 1)) (L : Layout)
    (m : Matrix (Fin 3) (Fin 3) ℝ) : Option (Matrix (Fin 3) (Fin 3) ℝ) :=
  (inv3Stripes c p fl pd tb ts (stripesOf L m)).map fun r => stripesOf L (Matrix.of r)

/-- `Inverse` of dimension 4 for a matrix of layout `L`. (Matrix/Math.hpp:351-436.) -/
noncomputable def inv4 (c : Cfg) (p : Bool) (fl : ℝ → ℝ) (pd : ℝ → ℝ → ℝ → ℝ → ℝ) (madd msub : ℝ → ℝ → ℝ → ℝ)
    (tb3 : RTree (batchSize 3 false)) (ts3 : RTree (3 + 1)) (tb4 : RTree (batchSize 4 false)) (ts4 : RTree (4 + 1)) (L : Layout)
    (m : Matrix (Fin 4) (Fin 4) ℝ) : Option (Matrix (Fin 4) (Fin 4) ℝ) :=
  (inv4Stripes c p fl pd madd msub tb3 ts3 tb4 ts4 (stripesOf L m)).map fun r => stripesOf L (Matrix.of r)

end Mathter.Fl
