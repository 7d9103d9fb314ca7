import Verif.Model.Element

/-!
# Determinants and inverses

Models `Determinant` and `Inverse` of `include/Mathter/Matrix/Math.hpp` at element level. Functions named `…Stripes` take the
array of stripes; `stripesOf` provides it for either layout.
-/

namespace Mathter
universe u
variable {K : Type u}

/-- `Determinant(Matrix<T, 2, 2>)` — Matrix/Math.hpp:166-169. -/
def det2 [CommRing K] (m : Matrix (Fin 2) (Fin 2) K) : K := m 0 0 * m 1 1 - m 1 0 * m 0 1

/-- `Determinant(Matrix<T, 3, 3>)` — Matrix/Math.hpp:172-183. -/
def det3Stripes [CommRing K] (s : Fin 3 → Fin 3 → K) : K :=
  let r0_zyx := sw (s 0) ![2, 1, 0]
  let r1_xzy := sw (s 1) ![0, 2, 1]
  let r1_yxz := sw (s 1) ![1, 0, 2]
  let r2_yxz := sw (s 2) ![1, 0, 2]
  let r2_xzy := sw (s 2) ![0, 2, 1]
  vsum (r0_zyx * (r1_xzy * r2_yxz - r1_yxz * r2_xzy))

/-- `Determinant(Matrix<T, 4, 4>)` — Matrix/Math.hpp:186-228. -/
def det4Stripes [CommRing K] (s : Fin 4 → Fin 4 → K) : K :=
  let evenPair : Fin 4 → K := ![1, -1, -1, 1]
  let oddPair : Fin 4 → K := ![-1, 1, 1, -1]
  let r0 := s 0
  let r1 := s 1
  let r2 := s 2
  let r3 := s 3
  let r2_zwzw := sw r2 ![2, 3, 2, 3]
  let r0_yyxx := sw r0 ![1, 1, 0, 0]
  let r1_wwxy := sw r1 ![3, 3, 0, 1]
  let r2_xyzz := sw r2 ![0, 1, 2, 2]
  let r3_wwww := sw r3 ![3, 3, 3, 3]
  let r1_zzxy := sw r1 ![2, 2, 0, 1]
  let r0_yxyx := sw r0 ![1, 0, 1, 0]
  let r3_xxyy := sw r3 ![0, 0, 1, 1]
  let r1_wzwz := sw r1 ![3, 2, 3, 2]
  let r2_xyww := sw r2 ![0, 1, 3, 3]
  let r3_zzzz := sw r3 ![2, 2, 2, 2]
  let r2_yxz := sw r2 ![1, 0, 2]
  let r3_xzy := sw r3 ![0, 2, 1]
  let r2_xzy := sw r2 ![0, 2, 1]
  let r3_yxz := sw r3 ![1, 0, 2]
  let r2_yxw := sw r2 ![1, 0, 3]
  let r1_zyx := sw r1 ![2, 1, 0]
  let r3_yxw := sw r3 ![1, 0, 3]
  let r2_xwy := sw r2 ![0, 3, 1]
  let r3_xwy := sw r3 ![0, 3, 1]
  let r1_wyx := sw r1 ![3, 1, 0]
  let r0_w := r0 3
  let r0_z := r0 2
  vsum (evenPair * (r0_yyxx * r1_wzwz * r2_zwzw * r3_xxyy))
    + vsum (oddPair * (r0_yxyx * r1_wwxy * r2_xyww * r3_zzzz))
    + vsum (evenPair * (r0_yxyx * r1_zzxy * r2_xyzz * r3_wwww))
    + (r0_w * vsum (r1_zyx * (r2_yxz * r3_xzy - r2_xzy * r3_yxz)))
    + (r0_z * vsum (r1_wyx * (r2_xwy * r3_yxw - r2_yxw * r3_xwy)))

/-- `result` of `Inverse(Matrix<T, 2, 2>)` before the final division — Matrix/Math.hpp:297-306, as an array of stripes. -/
def cof2Stripes [CommRing K] (s : Fin 2 → Fin 2 → K) : Fin 2 → Fin 2 → K :=
  let r0 := s 0
  let r1 := s 1
  ![![r1 1, -r0 1], ![-r1 0, r0 0]]

/-- `Inverse(Matrix<T, 2, 2>)` — Matrix/Math.hpp:307-311; `none` for `det = 0` (division by zero). -/
def inv2Stripes [Field K] [DecidableEq K] (s : Fin 2 → Fin 2 → K) : Option (Fin 2 → Fin 2 → K) :=
  let det := s 0 0 * s 1 1 - s 0 1 * s 1 0
  if det = 0 then none else some fun i j => cof2Stripes s i j / det

/-- `result` of `Inverse(Matrix<T, 3, 3>)` before the final division — Matrix/Math.hpp:315-342. -/
def cof3Stripes [CommRing K] (s : Fin 3 → Fin 3 → K) : Fin 3 → Fin 3 → K :=
  let r0_zxy := sw (s 0) ![2, 0, 1]
  let r0_yzx := sw (s 0) ![1, 2, 0]
  let r1_yzx := sw (s 1) ![1, 2, 0]
  let r1_zxy := sw (s 1) ![2, 0, 1]
  let r2_zxy := sw (s 2) ![2, 0, 1]
  let r2_yzx := sw (s 2) ![1, 2, 0]
  let c0 := r1_yzx * r2_zxy - r1_zxy * r2_yzx
  let c1 := r0_zxy * r2_yzx - r0_yzx * r2_zxy
  let c2 := r0_yzx * r1_zxy - r0_zxy * r1_yzx
  let result : Fin 3 → Fin 3 → K := ![![c0 0, c1 0, c2 0], ![c0 1, c1 1, c2 1], ![c0 2, c1 2, c2 2]]
  result

/-- `Inverse(Matrix<T, 3, 3>)` — Matrix/Math.hpp:315-347; `none` for `det = 0`. -/
def inv3Stripes [Field K] [DecidableEq K] (s : Fin 3 → Fin 3 → K) : Option (Fin 3 → Fin 3 → K) :=
  let det := det3Stripes s
  if det = 0 then none else some fun i j => cof3Stripes s i j / det

/-- `result` of `Inverse(Matrix<T, 4, 4>)` before the final division — Matrix/Math.hpp:351-431. -/
def cof4Stripes [CommRing K] (s : Fin 4 → Fin 4 → K) : Fin 4 → Fin 4 → K :=
  let even : Fin 4 → K := ![1, -1, 1, -1]
  let odd : Fin 4 → K := ![-1, 1, -1, 1]
  let r0_wwwz := sw (s 0) ![3, 3, 3, 2]
  let r0_yxxx := sw (s 0) ![1, 0, 0, 0]
  let r0_zzyy := sw (s 0) ![2, 2, 1, 1]
  let r1_wwwz := sw (s 1) ![3, 3, 3, 2]
  let r1_yxxx := sw (s 1) ![1, 0, 0, 0]
  let r1_zzyy := sw (s 1) ![2, 2, 1, 1]
  let r2_wwwz := sw (s 2) ![3, 3, 3, 2]
  let r2_yxxx := sw (s 2) ![1, 0, 0, 0]
  let r2_zzyy := sw (s 2) ![2, 2, 1, 1]
  let r3_wwwz := sw (s 3) ![3, 3, 3, 2]
  let r3_yxxx := sw (s 3) ![1, 0, 0, 0]
  let r3_zzyy := sw (s 3) ![2, 2, 1, 1]
  let r0_wwwz_r1_yxxx := r0_wwwz * r1_yxxx
  let r0_wwwz_r1_zzyy := r0_wwwz * r1_zzyy
  let r0_yxxx_r1_wwwz := r0_yxxx * r1_wwwz
  let r0_yxxx_r1_zzyy := r0_yxxx * r1_zzyy
  let r0_zzyy_r1_wwwz := r0_zzyy * r1_wwwz
  let r0_zzyy_r1_yxxx := r0_zzyy * r1_yxxx
  let r2_wwwz_r3_yxxx := r2_wwwz * r3_yxxx
  let r2_wwwz_r3_zzyy := r2_wwwz * r3_zzyy
  let r2_yxxx_r3_wwwz := r2_yxxx * r3_wwwz
  let r2_yxxx_r3_zzyy := r2_yxxx * r3_zzyy
  let r2_zzyy_r3_wwwz := r2_zzyy * r3_wwwz
  let r2_zzyy_r3_yxxx := r2_zzyy * r3_yxxx
  let c0 := odd * (r1_wwwz * r2_zzyy_r3_yxxx - r1_zzyy * r2_wwwz_r3_yxxx - r1_wwwz * r2_yxxx_r3_zzyy
    + r1_yxxx * r2_wwwz_r3_zzyy + r1_zzyy * r2_yxxx_r3_wwwz - r1_yxxx * r2_zzyy_r3_wwwz)
  let c1 := even * (r0_wwwz * r2_zzyy_r3_yxxx - r0_zzyy * r2_wwwz_r3_yxxx - r0_wwwz * r2_yxxx_r3_zzyy
    + r0_yxxx * r2_wwwz_r3_zzyy + r0_zzyy * r2_yxxx_r3_wwwz - r0_yxxx * r2_zzyy_r3_wwwz)
  let c2 := odd * (r0_wwwz_r1_zzyy * r3_yxxx - r0_zzyy_r1_wwwz * r3_yxxx - r0_wwwz_r1_yxxx * r3_zzyy
    + r0_yxxx_r1_wwwz * r3_zzyy + r0_zzyy_r1_yxxx * r3_wwwz - r0_yxxx_r1_zzyy * r3_wwwz)
  let c3 := even * (r0_wwwz_r1_zzyy * r2_yxxx - r0_zzyy_r1_wwwz * r2_yxxx - r0_wwwz_r1_yxxx * r2_zzyy
    + r0_yxxx_r1_wwwz * r2_zzyy + r0_zzyy_r1_yxxx * r2_wwwz - r0_yxxx_r1_zzyy * r2_wwwz)
  let result : Fin 4 → Fin 4 → K :=
    ![![c0 0, c1 0, c2 0, c3 0], ![c0 1, c1 1, c2 1, c3 1], ![c0 2, c1 2, c2 2, c3 2], ![c0 3, c1 3, c2 3, c3 3]]
  result

/-- `Inverse(Matrix<T, 4, 4>)` — Matrix/Math.hpp:351-436; `none` for `det = 0`. -/
def inv4Stripes [Field K] [DecidableEq K] (s : Fin 4 → Fin 4 → K) : Option (Fin 4 → Fin 4 → K) :=
  let det := det4Stripes s
  if det = 0 then none else some fun i j => cof4Stripes s i j / det

/-- `Inverse` of dimension 2 for a matrix of layout `L`: stripes in, stripes out. (Matrix/Math.hpp:298-312.) -/
def inv2 [Field K] [DecidableEq K] (L : Layout) (m : Matrix (Fin 2) (Fin 2) K) : Option (Matrix (Fin 2) (Fin 2) K) :=
  (inv2Stripes (stripesOf L m)).map fun r => stripesOf L (Matrix.of r)

/-- `Inverse` of dimension 3 for a matrix of layout `L`. (Matrix/Math.hpp:316-347.) -/
def inv3 [Field K] [DecidableEq K] (L : Layout) (m : Matrix (Fin 3) (Fin 3) K) : Option (Matrix (Fin 3) (Fin 3) K) :=
  (inv3Stripes (stripesOf L m)).map fun r => stripesOf L (Matrix.of r)

/-- `Inverse` of dimension 4 for a matrix of layout `L`. (Matrix/Math.hpp:351-436.) -/
def inv4 [Field K] [DecidableEq K] (L : Layout) (m : Matrix (Fin 4) (Fin 4) K) : Option (Matrix (Fin 4) (Fin 4) K) :=
  (inv4Stripes (stripesOf L m)).map fun r => stripesOf L (Matrix.of r)

/-! ## Bareiss -/

/-- State of `BareissAlgorithm`: `inPlace` and `flipSign`; `minor` is local to an iteration. (Matrix/Math.hpp:235-239.) -/
structure Bareiss (K : Type u) (n : ℕ) where
  inPlace : Fin n → Fin n → K
  flipSign : Bool

/-- One step of the pivot search `for (i = k; i < Dim && minor == 0; ++i)` — Matrix/Math.hpp:240-251. `candidate` is a reference into
`inPlace`, so `minor = candidate` reads the element after the two rows were exchanged. `kp` is `k - 1`. -/
def bareissPivotStep [Zero K] [DecidableEq K] {n : ℕ} (kp : Fin n) (i : Fin n) (s : Bareiss K n × K) : Bareiss K n × K :=
  let (b, minor) := s
  if minor = 0 then
    if b.inPlace i kp ≠ 0 then
      let rowk1 := b.inPlace kp
      let rowi := b.inPlace i
      let swapped : Fin n → Fin n → K := fun r => if r = i then rowk1 else if r = kp then rowi else b.inPlace r
      (⟨swapped, !b.flipSign⟩, swapped i kp)
    else (b, minor)
  else (b, minor)

/-- The elimination loops — Matrix/Math.hpp:258-262 (in place, row by row). -/
def bareissElim {n : ℕ} [Sub K] [Mul K] (div : K → K → K) (k : Fin n) (minor : K) (a : Fin n → Fin n → K) : Fin n → Fin n → K :=
  forUp n (k.val + 1) (fun i a => forUp n (k.val + 1) (fun j a =>
    fun r c => if r = i ∧ c = j then div (a i j * a k k - a i k * a k j) minor else a r c) a) a

/-- One iteration of the outer loop — Matrix/Math.hpp:238-263; `none` is the early `return 0`. -/
def bareissStep [CommRing K] [DecidableEq K] (div : K → K → K) {n : ℕ} (k : Fin n) (s : Option (Bareiss K n)) : Option (Bareiss K n) :=
  s.bind fun b =>
    if hk : k.val = 0 then
      if (1 : K) = 0 then none else some ⟨bareissElim div k 1 b.inPlace, b.flipSign⟩
    else
      let kp : Fin n := ⟨k.val - 1, by omega⟩
      let (b', minor) := forUp n k.val (bareissPivotStep kp) (b, b.inPlace kp kp)
      if minor = 0 then none else some ⟨bareissElim div k minor b'.inPlace, b'.flipSign⟩

/-- `BareissAlgorithm` — Matrix/Math.hpp:234-265 for `Dim = n + 1`. `div` is `T`'s division (exact for fields, truncating for
integers); it is only applied to a nonzero divisor. -/
def bareiss [CommRing K] [DecidableEq K] (div : K → K → K) {n : ℕ} (m : Matrix (Fin (n + 1)) (Fin (n + 1)) K) : K :=
  match forUp n 0 (fun k => bareissStep div k.castSucc) (some ⟨fun i j => m i j, false⟩) with
  | none => 0
  | some b => if b.flipSign then -b.inPlace (Fin.last n) (Fin.last n) else b.inPlace (Fin.last n) (Fin.last n)

/-- `Determinant` for any dimension, choosing the overload by dimension — Matrix/Math.hpp:166-274. -/
def determinant [CommRing K] [DecidableEq K] (div : K → K → K) (L : Layout) : {n : ℕ} → Matrix (Fin (n + 1)) (Fin (n + 1)) K → K
  | 1, m => det2 m
  | 2, m => det3Stripes (stripesOf L m)
  | 3, m => det4Stripes (stripesOf L m)
  | _, m => bareiss div m

end Mathter
