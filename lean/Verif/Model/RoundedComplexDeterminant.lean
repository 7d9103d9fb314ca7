import Verif.Model.RoundedComplexLinear
import Verif.Model.RoundedDeterminant

/-!
# Rounded evaluation of the determinants and inverses of small complex matrices

`Determinant` and `Inverse` of dimensions 2, 3 and 4 (`include/Mathter/Matrix/Math.hpp`) for complex element types, without overflow or underflow: real and
imaginary part of every sum are rounded, products may fuse inside (`ps`, `pd`), `dv` is the division. As in `Model/Determinant`, functions named `…Stripes…` take
the array of stripes.
-/

namespace Mathter.Fl
variable {n : ℕ}

/-- `a * b - c * d` of complex numbers. (used in Matrix/Math.hpp:168, 180, 333-335.) -/
def pdC (fl : ℝ → ℝ) (ps pd : ℝ → ℝ → ℝ → ℝ → ℝ) (a b c d : ℂ) : ℂ := flC fl (prodC ps pd a b - prodC ps pd c d)

/-- `d + a * b` of complex numbers. (used in Matrix/Math.hpp:223-227, 393-396.) -/
def maddC (fl : ℝ → ℝ) (ps pd : ℝ → ℝ → ℝ → ℝ → ℝ) (a b d : ℂ) : ℂ := flC fl (prodC ps pd a b + d)

/-- `operator*(Vector, Vector)` element by element — Vector/Arithmetic.hpp:51-55, 142. -/
def stripeMulC (ps pd : ℝ → ℝ → ℝ → ℝ → ℝ) (a b : Fin n → ℂ) : Fin n → ℂ := fun i => prodC ps pd (a i) (b i)

/-- `a * b - c * d` of vectors, element by element. (used in Matrix/Math.hpp:180, 333-335.) -/
def vpdC (fl : ℝ → ℝ) (ps pd : ℝ → ℝ → ℝ → ℝ → ℝ) (a b c d : Fin n → ℂ) : Fin n → ℂ := fun i => pdC fl ps pd (a i) (b i) (c i) (d i)

/-- `Sum` of a temporary vector of packing `p` — Vector/Math.hpp:142-153. -/
noncomputable def vsumC (c : Cfg) (p : Bool) (fl : ℝ → ℝ) (tb : RTree (batchSize n false)) (ts : RTree (n + 1)) (v : Fin n → ℂ) : ℂ :=
  sumC fl tb ts (Vec.ofFn v : Vec c ℂ n p)

/-- `Determinant(Matrix<T, 2, 2>)` — Matrix/Math.hpp:166-169. -/
def det2C (fl : ℝ → ℝ) (ps pd : ℝ → ℝ → ℝ → ℝ → ℝ) (m : Matrix (Fin 2) (Fin 2) ℂ) : ℂ := pdC fl ps pd (m 0 0) (m 1 1) (m 1 0) (m 0 1)

/-- `Determinant(Matrix<T, 3, 3>)` — Matrix/Math.hpp:172-183; also Matrix/Math.hpp:344. -/
noncomputable def det3StripesC (c : Cfg) (p : Bool) (fl : ℝ → ℝ) (ps pd : ℝ → ℝ → ℝ → ℝ → ℝ) (tb : RTree (batchSize 3 false)) (ts : RTree (3 + 1))
    (s : Fin 3 → Fin 3 → ℂ) : ℂ :=
  let r0_zyx := sw (s 0) ![2, 1, 0]
  let r1_xzy := sw (s 1) ![0, 2, 1]
  let r1_yxz := sw (s 1) ![1, 0, 2]
  let r2_yxz := sw (s 2) ![1, 0, 2]
  let r2_xzy := sw (s 2) ![0, 2, 1]
  vsumC c p fl tb ts (stripeMulC ps pd r0_zyx (vpdC fl ps pd r1_xzy r2_yxz r1_yxz r2_xzy))

/-- `Determinant(Matrix<T, 4, 4>)` — Matrix/Math.hpp:186-228; also Matrix/Math.hpp:409-434. -/
noncomputable def det4StripesC (c : Cfg) (p : Bool) (fl : ℝ → ℝ) (ps pd : ℝ → ℝ → ℝ → ℝ → ℝ)
    (tb3 : RTree (batchSize 3 false)) (ts3 : RTree (3 + 1)) (tb4 : RTree (batchSize 4 false)) (ts4 : RTree (4 + 1)) (s : Fin 4 → Fin 4 → ℂ) : ℂ :=
  let evenPair : Fin 4 → ℂ := ![1, -1, -1, 1]
  let oddPair : Fin 4 → ℂ := ![-1, 1, 1, -1]
  let r0 := s 0
  let r1 := s 1
  let r2 := s 2
  let r3 := s 3
  let r2_zwzw := sw r2 ![2, 3, 2, 3]
  let r0_yyxx := sw r0 ![1, 1, 0, 0]
  let r1_wwxy := sw r1 ![3, 3, 0, 1]
  let r2_xyzz := sw r2 ![0, 1, 2, 2]
  let r3_wwww := sw r3 ![3, 3, 3, 3]
  let r1_zzxy := sw r1 ![2, 2, 0, 1]
  let r0_yxyx := sw r0 ![1, 0, 1, 0]
  let r3_xxyy := sw r3 ![0, 0, 1, 1]
  let r1_wzwz := sw r1 ![3, 2, 3, 2]
  let r2_xyww := sw r2 ![0, 1, 3, 3]
  let r3_zzzz := sw r3 ![2, 2, 2, 2]
  let r2_yxz := sw r2 ![1, 0, 2]
  let r3_xzy := sw r3 ![0, 2, 1]
  let r2_xzy := sw r2 ![0, 2, 1]
  let r3_yxz := sw r3 ![1, 0, 2]
  let r2_yxw := sw r2 ![1, 0, 3]
  let r1_zyx := sw r1 ![2, 1, 0]
  let r3_yxw := sw r3 ![1, 0, 3]
  let r2_xwy := sw r2 ![0, 3, 1]
  let r3_xwy := sw r3 ![0, 3, 1]
  let r1_wyx := sw r1 ![3, 1, 0]
  let r0_w := r0 3
  let r0_z := r0 2
  let s1 := vsumC c p fl tb4 ts4 (stripeMulC ps pd evenPair (stripeMulC ps pd (stripeMulC ps pd (stripeMulC ps pd r0_yyxx r1_wzwz) r2_zwzw) r3_xxyy))
  let s2 := vsumC c p fl tb4 ts4 (stripeMulC ps pd oddPair (stripeMulC ps pd (stripeMulC ps pd (stripeMulC ps pd r0_yxyx r1_wwxy) r2_xyww) r3_zzzz))
  let s3 := vsumC c p fl tb4 ts4 (stripeMulC ps pd evenPair (stripeMulC ps pd (stripeMulC ps pd (stripeMulC ps pd r0_yxyx r1_zzxy) r2_xyzz) r3_wwww))
  maddC fl ps pd r0_z (vsumC c p fl tb3 ts3 (stripeMulC ps pd r1_wyx (vpdC fl ps pd r2_xwy r3_yxw r2_yxw r3_xwy)))
    (maddC fl ps pd r0_w (vsumC c p fl tb3 ts3 (stripeMulC ps pd r1_zyx (vpdC fl ps pd r2_yxz r3_xzy r2_xzy r3_yxz))) (flC fl (flC fl (s1 + s2) + s3)))

open Classical in
/-- `Inverse(Matrix<T, 2, 2>)` — Matrix/Math.hpp:297-311; `none` for a zero divisor. -/
noncomputable def inv2StripesC (dv : ℂ → ℂ → ℂ) (fl : ℝ → ℝ) (ps pd : ℝ → ℝ → ℝ → ℝ → ℝ) (s : Fin 2 → Fin 2 → ℂ) : Option (Fin 2 → Fin 2 → ℂ) :=
  let det := pdC fl ps pd (s 0 0) (s 1 1) (s 0 1) (s 1 0)
  if det = 0 then none else some fun i j => dv (cof2Stripes s i j) det

/-- `result` of `Inverse(Matrix<T, 3, 3>)` before the final division — Matrix/Math.hpp:315-342. -/
def cof3StripesC (fl : ℝ → ℝ) (ps pd : ℝ → ℝ → ℝ → ℝ → ℝ) (s : Fin 3 → Fin 3 → ℂ) : Fin 3 → Fin 3 → ℂ :=
  let r0_zxy := sw (s 0) ![2, 0, 1]
  let r0_yzx := sw (s 0) ![1, 2, 0]
  let r1_yzx := sw (s 1) ![1, 2, 0]
  let r1_zxy := sw (s 1) ![2, 0, 1]
  let r2_zxy := sw (s 2) ![2, 0, 1]
  let r2_yzx := sw (s 2) ![1, 2, 0]
  let c0 := vpdC fl ps pd r1_yzx r2_zxy r1_zxy r2_yzx
  let c1 := vpdC fl ps pd r0_zxy r2_yzx r0_yzx r2_zxy
  let c2 := vpdC fl ps pd r0_yzx r1_zxy r0_zxy r1_yzx
  let result : Fin 3 → Fin 3 → ℂ := ![![c0 0, c1 0, c2 0], ![c0 1, c1 1, c2 1], ![c0 2, c1 2, c2 2]]
  result

open Classical in
/-- `Inverse(Matrix<T, 3, 3>)` — Matrix/Math.hpp:315-347; `none` for a zero divisor. -/
noncomputable def inv3StripesC (c : Cfg) (p : Bool) (dv : ℂ → ℂ → ℂ) (fl : ℝ → ℝ) (ps pd : ℝ → ℝ → ℝ → ℝ → ℝ) (tb : RTree (batchSize 3 false)) (ts : RTree (3 + 1))
    (s : Fin 3 → Fin 3 → ℂ) : Option (Fin 3 → Fin 3 → ℂ) :=
  let det := det3StripesC c p fl ps pd tb ts s
  if det = 0 then none else some fun i j => dv (cof3StripesC fl ps pd s i j) det

/-- `sign * (a0 * b0 - a1 * b1 - a2 * b2 + a3 * b3 + a4 * b4 - a5 * b5)` of vectors, element by element. (used in Matrix/Math.hpp:393-396.) -/
def sixC (fl : ℝ → ℝ) (ps pd : ℝ → ℝ → ℝ → ℝ → ℝ) (sign a0 b0 a1 b1 a2 b2 a3 b3 a4 b4 a5 b5 : Fin 4 → ℂ) : Fin 4 → ℂ := fun i =>
  prodC ps pd (sign i) (mulSubC fl ps pd (maddC fl ps pd (a4 i) (b4 i) (maddC fl ps pd (a3 i) (b3 i)
    (mulSubC fl ps pd (pdC fl ps pd (a0 i) (b0 i) (a1 i) (b1 i)) (a2 i) (b2 i)))) (a5 i) (b5 i))

/-- `result` of `Inverse(Matrix<T, 4, 4>)` before the final division — Matrix/Math.hpp:351-404. -/
def cof4StripesC (fl : ℝ → ℝ) (ps pd : ℝ → ℝ → ℝ → ℝ → ℝ) (s : Fin 4 → Fin 4 → ℂ) : Fin 4 → Fin 4 → ℂ :=
  let even : Fin 4 → ℂ := ![1, -1, 1, -1]
  let odd : Fin 4 → ℂ := ![-1, 1, -1, 1]
  let r0_wwwz := sw (s 0) ![3, 3, 3, 2]
  let r0_yxxx := sw (s 0) ![1, 0, 0, 0]
  let r0_zzyy := sw (s 0) ![2, 2, 1, 1]
  let r1_wwwz := sw (s 1) ![3, 3, 3, 2]
  let r1_yxxx := sw (s 1) ![1, 0, 0, 0]
  let r1_zzyy := sw (s 1) ![2, 2, 1, 1]
  let r2_wwwz := sw (s 2) ![3, 3, 3, 2]
  let r2_yxxx := sw (s 2) ![1, 0, 0, 0]
  let r2_zzyy := sw (s 2) ![2, 2, 1, 1]
  let r3_wwwz := sw (s 3) ![3, 3, 3, 2]
  let r3_yxxx := sw (s 3) ![1, 0, 0, 0]
  let r3_zzyy := sw (s 3) ![2, 2, 1, 1]
  let r0_wwwz_r1_yxxx := stripeMulC ps pd r0_wwwz r1_yxxx
  let r0_wwwz_r1_zzyy := stripeMulC ps pd r0_wwwz r1_zzyy
  let r0_yxxx_r1_wwwz := stripeMulC ps pd r0_yxxx r1_wwwz
  let r0_yxxx_r1_zzyy := stripeMulC ps pd r0_yxxx r1_zzyy
  let r0_zzyy_r1_wwwz := stripeMulC ps pd r0_zzyy r1_wwwz
  let r0_zzyy_r1_yxxx := stripeMulC ps pd r0_zzyy r1_yxxx
  let r2_wwwz_r3_yxxx := stripeMulC ps pd r2_wwwz r3_yxxx
  let r2_wwwz_r3_zzyy := stripeMulC ps pd r2_wwwz r3_zzyy
  let r2_yxxx_r3_wwwz := stripeMulC ps pd r2_yxxx r3_wwwz
  let r2_yxxx_r3_zzyy := stripeMulC ps pd r2_yxxx r3_zzyy
  let r2_zzyy_r3_wwwz := stripeMulC ps pd r2_zzyy r3_wwwz
  let r2_zzyy_r3_yxxx := stripeMulC ps pd r2_zzyy r3_yxxx
  let c0 := sixC fl ps pd odd r1_wwwz r2_zzyy_r3_yxxx r1_zzyy r2_wwwz_r3_yxxx r1_wwwz r2_yxxx_r3_zzyy
    r1_yxxx r2_wwwz_r3_zzyy r1_zzyy r2_yxxx_r3_wwwz r1_yxxx r2_zzyy_r3_wwwz
  let c1 := sixC fl ps pd even r0_wwwz r2_zzyy_r3_yxxx r0_zzyy r2_wwwz_r3_yxxx r0_wwwz r2_yxxx_r3_zzyy
    r0_yxxx r2_wwwz_r3_zzyy r0_zzyy r2_yxxx_r3_wwwz r0_yxxx r2_zzyy_r3_wwwz
  let c2 := sixC fl ps pd odd r0_wwwz_r1_zzyy r3_yxxx r0_zzyy_r1_wwwz r3_yxxx r0_wwwz_r1_yxxx r3_zzyy
    r0_yxxx_r1_wwwz r3_zzyy r0_zzyy_r1_yxxx r3_wwwz r0_yxxx_r1_zzyy r3_wwwz
  let c3 := sixC fl ps pd even r0_wwwz_r1_zzyy r2_yxxx r0_zzyy_r1_wwwz r2_yxxx r0_wwwz_r1_yxxx r2_zzyy
    r0_yxxx_r1_wwwz r2_zzyy r0_zzyy_r1_yxxx r2_wwwz r0_yxxx_r1_zzyy r2_wwwz
  let result : Fin 4 → Fin 4 → ℂ :=
    ![![c0 0, c1 0, c2 0, c3 0], ![c0 1, c1 1, c2 1, c3 1], ![c0 2, c1 2, c2 2, c3 2], ![c0 3, c1 3, c2 3, c3 3]]
  result

open Classical in
/-- `Inverse(Matrix<T, 4, 4>)` — Matrix/Math.hpp:351-436; `none` for a zero divisor. -/
noncomputable def inv4StripesC (c : Cfg) (p : Bool) (dv : ℂ → ℂ → ℂ) (fl : ℝ → ℝ) (ps pd : ℝ → ℝ → ℝ → ℝ → ℝ)
    (tb3 : RTree (batchSize 3 false)) (ts3 : RTree (3 + 1)) (tb4 : RTree (batchSize 4 false)) (ts4 : RTree (4 + 1)) (s : Fin 4 → Fin 4 → ℂ) :
    Option (Fin 4 → Fin 4 → ℂ) :=
  let det := det4StripesC c p fl ps pd tb3 ts3 tb4 ts4 s
  if det = 0 then none else some fun i j => dv (cof4StripesC fl ps pd s i j) det

/-- `Inverse` of dimension 2 for a matrix of layout `L`: stripes in, stripes out. (Matrix/Math.hpp:298-312.) -/
noncomputable def inv2C (dv : ℂ → ℂ → ℂ) (fl : ℝ → ℝ) (ps pd : ℝ → ℝ → ℝ → ℝ → ℝ) (L : Layout) (m : Matrix (Fin 2) (Fin 2) ℂ) : Option (Matrix (Fin 2) (Fin 2) ℂ) :=
  (inv2StripesC dv fl ps pd (stripesOf L m)).map fun r => stripesOf L (Matrix.of r)

/-- `Inverse` of dimension 3 for a matrix of layout `L`. (Matrix/Math.hpp:316-347.) -/
noncomputable def inv3C (c : Cfg) (p : Bool) (dv : ℂ → ℂ → ℂ) (fl : ℝ → ℝ) (ps pd : ℝ → ℝ → ℝ → ℝ → ℝ) (tb : RTree (batchSize 3 false)) (ts : RTree (3 + 1)) (L : Layout)
    (m : Matrix (Fin 3) (Fin 3) ℂ) : Option (Matrix (Fin 3) (Fin 3) ℂ) :=
  (inv3StripesC c p dv fl ps pd tb ts (stripesOf L m)).map fun r => stripesOf L (Matrix.of r)

/-- `Inverse` of dimension 4 for a matrix of layout `L`. (Matrix/Math.hpp:351-436.) -/
noncomputable def inv4C (c : Cfg) (p : Bool) (dv : ℂ → ℂ → ℂ) (fl : ℝ → ℝ) (ps pd : ℝ → ℝ → ℝ → ℝ → ℝ)
    (tb3 : RTree (batchSize 3 false)) (ts3 : RTree (3 + 1)) (tb4 : RTree (batchSize 4 false)) (ts4 : RTree (4 + 1)) (L : Layout)
    (m : Matrix (Fin 4) (Fin 4) ℂ) : Option (Matrix (Fin 4) (Fin 4) ℂ) :=
  (inv4StripesC c p dv fl ps pd tb3 ts3 tb4 ts4 (stripesOf L m)).map fun r => stripesOf L (Matrix.of r)

end Mathter.Fl
