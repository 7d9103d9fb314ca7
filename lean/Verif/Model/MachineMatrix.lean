import Verif.Model.MachineInt
import Verif.Model.Matrix
import Verif.Model.Determinant

/-!
# Matrices of machine integers

Models the products of `include/Mathter/Matrix/Arithmetic.hpp` and `Trace`, `Determinant` of `Matrix/Math.hpp` for integer types of C++: promotion,
conversion, overflow. The configurations `cA`, `cB` and `cC` are those of vectors of the types of the operands and of the result.
-/

namespace Mathter
open IntTy

/-- The functor `madd` on operands of types `s`, `t`, `u`: all are converted to the type of `a * b + c` first — Common/Functional.hpp:34-48, 61-71. -/
def IntTy.scalarMadd (s t u : IntTy) (a b d : ℤ) : Option ℤ :=
  let r := common (common s t) u
  (result r (conv r a * conv r b)).bind fun x => result r (x + conv r d)

namespace Vec
variable {cA cB cC cD : Cfg} {dim : ℕ} {p1 p2 p3 : Bool}

/-- `MultiplyAdd` of integer vectors — Vector/Arithmetic.hpp:226-235 through `DoTernaryOp` (OperationUtil.hpp:145-165). As for `opInt`, only operands of the
result's type are combined lane by lane, where `xsimd::fma` wraps around (Common/Functional.hpp:51-58). -/
def maddInt (s t u : IntTy) (a : Vec cA ℤ dim p1) (b : Vec cB ℤ dim p2) (d : Vec cD ℤ dim p3) : Option (Vec cC ℤ dim (p1 && p2 && p3)) :=
  let r := common (common s t) u
  if h : isBatched cA dim p1 = true ∧ isBatched cB dim p2 = true ∧ isBatched cD dim p3 = true ∧ isBatched cC dim (p1 && p2 && p3) = true ∧
      s = r ∧ t = r ∧ u = r then
    some (store h.2.2.2.1 fun l => conv r (a.load h.1 l * b.load h.2.1 l + d.load h.2.2.1 l))
  else (seqFin fun i => IntTy.scalarMadd s t u (a.get i) (b.get i) (d.get i)).map ofFn

end Vec

namespace Mat
open Vec
variable {cA cB cC : Cfg} {r k n : ℕ} {o : Order} {L L' : Layout} {p1 p2 : Bool}

/-- A row of row-major × row-major — Matrix/Arithmetic.hpp:28-31; also vector × row-major matrix — Matrix/Arithmetic.hpp:136-147. The row is kept in
a variable until it is complete. -/
def rowInt [NeZero k] (s t : IntTy) (p : Bool) (x : Fin k → ℤ) (rhs : Mat cB ℤ k n o .row p2) : Option (Vec cC ℤ n p) :=
  forUp k 1 (fun run v => v.bind fun v => (maddInt (cC := cC) (common s t) t (common s t) (fill (conv (common s t) (x run)) : Vec cC ℤ n p) (rhs.stripes run) v).map
    (Vec.asPacked p)) ((opInt (cC := cC) (· * ·) s t (fill (x 0) : Vec cA ℤ n p2) (rhs.stripes 0)).map (Vec.asPacked p))

/-- Row-major × row-major — Matrix/Arithmetic.hpp:17-36. -/
def mulRRInt [NeZero k] (s t : IntTy) (lhs : Mat cA ℤ r k o .row p1) (rhs : Mat cB ℤ k n o .row p2) : Option (Mat cC ℤ r n o .row (p1 && p2)) :=
  (seqFin fun i => rowInt (cA := cA) (cC := cC) s t (p1 && p2) (fun q => lhs.get i q) rhs).map fun rows => ⟨rows⟩

/-- Row-major × column-major — Matrix/Arithmetic.hpp:39-55. The product of the vectors has the configuration `cC`. -/
def mulRCInt (s t : IntTy) (tb : RTree (batchSize k false)) (ts : RTree k) (lhs : Mat cA ℤ r k o .row p1) (rhs : Mat cB ℤ k n o .col p2) :
    Option (Mat cC ℤ r n o .row (p1 && p2)) :=
  (seqFin fun i => seqFin fun j => dotInt (cC := cC) s t tb ts (lhs.stripes i) (rhs.stripes j)).map fun e => ⟨fun i => Vec.ofFn (e i)⟩

/-- A column of column-major × any layout — Matrix/Arithmetic.hpp:69-72. The column is kept in a variable until it is complete. -/
def colInt [NeZero k] (s t : IntTy) (p : Bool) (lhs : Mat cA ℤ r k o .col p1) (x : Fin k → ℤ) : Option (Vec cC ℤ r p) :=
  forUp k 1 (fun run v => v.bind fun v => (maddInt (cC := cC) s (common s t) (common s t) (lhs.stripes run) (fill (conv (common s t) (x run)) : Vec cC ℤ r p) v).map
    (Vec.asPacked p)) ((opInt (cC := cC) (· * ·) s t (lhs.stripes 0) (fill (x 0) : Vec cB ℤ r p1)).map (Vec.asPacked p))

/-- Column-major × any layout — Matrix/Arithmetic.hpp:58-75. -/
def mulCInt [NeZero k] (s t : IntTy) (lhs : Mat cA ℤ r k o .col p1) (rhs : Mat cB ℤ k n o L p2) : Option (Mat cC ℤ r n o .col (p1 && p2)) :=
  (seqFin fun j => colInt (cB := cB) (cC := cC) s t (p1 && p2) lhs (fun q => rhs.get q j)).map fun cols => ⟨cols⟩

/-- `operator*(Matrix, Matrix)` of integers — Matrix/Arithmetic.hpp:185-191. -/
def matMulInt [NeZero k] (s t : IntTy) (tb : RTree (batchSize k false)) (ts : RTree k) (lhs : Mat cA ℤ r k o L p1) (rhs : Mat cB ℤ k n o L' p2) :
    Option (Mat cC ℤ r n o L (p1 && p2)) :=
  match L, L', lhs, rhs with
  | .row, .row, lhs, rhs => mulRRInt s t lhs rhs
  | .row, .col, lhs, rhs => mulRCInt s t tb ts lhs rhs
  | .col, _, lhs, rhs => mulCInt s t lhs rhs

/-- `operator*(Vector, Matrix)` of integers — Matrix/Arithmetic.hpp:136-160, 290-296. Only the elements are returned. -/
def vecMulInt [NeZero k] (cC : Cfg) (s t : IntTy) (tb : RTree (batchSize k false)) (ts : RTree k) (lhs : Vec cA ℤ k p1) (rhs : Mat cB ℤ k n .follow L p2) :
    Option (Fin n → ℤ) :=
  match L, rhs with
  | .row, rhs => (rowInt (cA := cA) (cC := cC) s t (p2 && p2) lhs.get rhs).map Vec.get
  | .col, rhs => seqFin fun j => dotInt (cC := cC) s t tb ts lhs (rhs.stripes j)

/-- `operator*(Matrix, Vector)` of integers — Matrix/Arithmetic.hpp:162-176, 299-304: the vector times the flipped matrix. -/
def mulVecInt [NeZero k] (cC : Cfg) (s t : IntTy) (tb : RTree (batchSize k false)) (ts : RTree k) (m0 : Mat cA ℤ k n .follow L.flip p1)
    (lhs : Mat cA ℤ n k .precede L p1) (rhs : Vec cB ℤ k p2) : Option (Fin n → ℤ) :=
  vecMulInt cC t s tb ts rhs (flipLayoutAndOrder (o := .precede) m0 lhs)

end Mat

section
variable {n : ℕ} {p : Bool}

/-- `Trace(m)` of integers — Matrix/Math.hpp:155-162. -/
def traceInt (c : Cfg) (p : Bool) (t : IntTy) (tb : RTree (batchSize n false)) (ts : RTree n) (m : Matrix (Fin n) (Fin n) ℤ) : Option ℤ :=
  (Vec.ofFn fun i => m i i : Vec c ℤ n p).sumInt t tb ts

/-- `Determinant(Matrix<T, 2, 2>)` of integers — Matrix/Math.hpp:166-169. The operators are computed in the promoted type. -/
def det2Int (t : IntTy) (m : Matrix (Fin 2) (Fin 2) ℤ) : Option ℤ :=
  (scalarOp (· * ·) t t (m 0 0) (m 1 1)).bind fun x => (scalarOp (· * ·) t t (m 1 0) (m 0 1)).bind fun y =>
    (scalarOp (· - ·) (common t t) (common t t) x y).map (conv t)

/-- `Determinant(Matrix<T, 3, 3>)` of integers — Matrix/Math.hpp:172-183. `c` is the configuration of vectors of `T`, `c'` that of the promoted type. -/
def det3Int (c c' : Cfg) (p : Bool) (t : IntTy) (tb : RTree (batchSize 3 false)) (ts : RTree 3) (s : Fin 3 → Fin 3 → ℤ) : Option ℤ :=
  let u := common t t
  let r0_zyx : Vec c ℤ 3 p := Vec.ofFn (sw (s 0) ![2, 1, 0])
  let r1_xzy : Vec c ℤ 3 p := Vec.ofFn (sw (s 1) ![0, 2, 1])
  let r1_yxz : Vec c ℤ 3 p := Vec.ofFn (sw (s 1) ![1, 0, 2])
  let r2_yxz : Vec c ℤ 3 p := Vec.ofFn (sw (s 2) ![1, 0, 2])
  let r2_xzy : Vec c ℤ 3 p := Vec.ofFn (sw (s 2) ![0, 2, 1])
  (Vec.opInt (cC := c') (· * ·) t t r1_xzy r2_yxz).bind fun x => (Vec.opInt (cC := c') (· * ·) t t r1_yxz r2_xzy).bind fun y =>
    (Vec.opInt (cC := c') (· - ·) u u x y).bind fun z => (Vec.opInt (cC := c') (· * ·) t u r0_zyx z).bind fun w => (w.sumInt u tb ts).map (conv t)

/-- `Sum(sign * (a * b * c * d))` in `Determinant(Matrix<T, 4, 4>)` — Matrix/Math.hpp:220-222. -/
def quadInt (c c' : Cfg) (p : Bool) (t : IntTy) (tb : RTree (batchSize 4 false)) (ts : RTree 4) (sign a b d e : Fin 4 → ℤ) : Option ℤ :=
  let u := common t t
  let v (x : Fin 4 → ℤ) : Vec c ℤ 4 p := Vec.ofFn x
  (Vec.opInt (cC := c') (· * ·) t t (v a) (v b)).bind fun x => (Vec.opInt (cC := c') (· * ·) u t x (v d)).bind fun x =>
    (Vec.opInt (cC := c') (· * ·) u t x (v e)).bind fun x => (Vec.opInt (cC := c') (· * ·) t u (v fun i => conv t (sign i)) x).bind fun x => x.sumInt u tb ts

/-- `f * Sum(a * (b * c - d * e))` in `Determinant(Matrix<T, 4, 4>)` — Matrix/Math.hpp:223-224. -/
def minorInt (c c' : Cfg) (p : Bool) (t : IntTy) (tb : RTree (batchSize 3 false)) (ts : RTree 3) (f : ℤ) (a b d e g : Fin 3 → ℤ) : Option ℤ :=
  let u := common t t
  let v (x : Fin 3 → ℤ) : Vec c ℤ 3 p := Vec.ofFn x
  (Vec.opInt (cC := c') (· * ·) t t (v b) (v d)).bind fun x => (Vec.opInt (cC := c') (· * ·) t t (v e) (v g)).bind fun y =>
    (Vec.opInt (cC := c') (· - ·) u u x y).bind fun z => (Vec.opInt (cC := c') (· * ·) t u (v a) z).bind fun w => (w.sumInt u tb ts).bind fun w =>
      scalarOp (· * ·) t u f w

/-- `Determinant(Matrix<T, 4, 4>)` of integers — Matrix/Math.hpp:186-228. -/
def det4Int (c c' : Cfg) (p : Bool) (t : IntTy) (tb3 : RTree (batchSize 3 false)) (ts3 : RTree 3) (tb4 : RTree (batchSize 4 false)) (ts4 : RTree 4)
    (s : Fin 4 → Fin 4 → ℤ) : Option ℤ :=
  let u := common t t
  let evenPair : Fin 4 → ℤ := ![1, -1, -1, 1]
  let oddPair : Fin 4 → ℤ := ![-1, 1, 1, -1]
  let r0 := s 0
  let r1 := s 1
  let r2 := s 2
  let r3 := s 3
  (quadInt c c' p t tb4 ts4 evenPair (sw r0 ![1, 1, 0, 0]) (sw r1 ![3, 2, 3, 2]) (sw r2 ![2, 3, 2, 3]) (sw r3 ![0, 0, 1, 1])).bind fun x0 =>
  (quadInt c c' p t tb4 ts4 oddPair (sw r0 ![1, 0, 1, 0]) (sw r1 ![3, 3, 0, 1]) (sw r2 ![0, 1, 3, 3]) (sw r3 ![2, 2, 2, 2])).bind fun x1 =>
  (quadInt c c' p t tb4 ts4 evenPair (sw r0 ![1, 0, 1, 0]) (sw r1 ![2, 2, 0, 1]) (sw r2 ![0, 1, 2, 2]) (sw r3 ![3, 3, 3, 3])).bind fun x2 =>
  (minorInt c c' p t tb3 ts3 (r0 3) (sw r1 ![2, 1, 0]) (sw r2 ![1, 0, 2]) (sw r3 ![0, 2, 1]) (sw r2 ![0, 2, 1]) (sw r3 ![1, 0, 2])).bind fun x3 =>
  (minorInt c c' p t tb3 ts3 (r0 2) (sw r1 ![3, 1, 0]) (sw r2 ![0, 3, 1]) (sw r3 ![1, 0, 3]) (sw r2 ![1, 0, 3]) (sw r3 ![0, 3, 1])).bind fun x4 =>
  (scalarOp (· + ·) u u x0 x1).bind fun x => (scalarOp (· + ·) u u x x2).bind fun x => (scalarOp (· + ·) u u x x3).bind fun x =>
  (scalarOp (· + ·) u u x x4).map (conv t)

/-! ## Bareiss -/

/-- `(inPlace(i, j) * inPlace(k, k) - inPlace(i, k) * inPlace(k, j)) / minor`, stored as `T` — Matrix/Math.hpp:260. -/
def bareissEntryInt (t : IntTy) (aij akk aik akj minor : ℤ) : Option ℤ :=
  let u := common t t
  (scalarOp (· * ·) t t aij akk).bind fun x => (scalarOp (· * ·) t t aik akj).bind fun y => (scalarOp (· - ·) u u x y).bind fun z =>
    (scalarDiv u t z minor).map (conv t)

/-- The elimination loops on integers — Matrix/Math.hpp:258-262. -/
def bareissElimInt {n : ℕ} (t : IntTy) (k : Fin n) (minor : ℤ) (a : Fin n → Fin n → ℤ) : Option (Fin n → Fin n → ℤ) :=
  forUp n (k.val + 1) (fun i a => forUp n (k.val + 1) (fun j a => a.bind fun a =>
    (bareissEntryInt t (a i j) (a k k) (a i k) (a k j) minor).map fun x => fun r c => if r = i ∧ c = j then x else a r c) a) (some a)

/-- One iteration of the outer loop on integers — Matrix/Math.hpp:238-263. The outer `none` is undefined behaviour, the inner one the early `return 0`. -/
def bareissStepInt {n : ℕ} (t : IntTy) (k : Fin n) (s : Option (Option (Bareiss ℤ n))) : Option (Option (Bareiss ℤ n)) :=
  s.bind fun s => match s with
    | none => some none
    | some b =>
      if hk : k.val = 0 then (bareissElimInt t k 1 b.inPlace).map fun a => some ⟨a, b.flipSign⟩
      else
        let kp : Fin n := ⟨k.val - 1, by omega⟩
        let (b', minor) := forUp n k.val (bareissPivotStep kp) (b, b.inPlace kp kp)
        if minor = 0 then some none else (bareissElimInt t k minor b'.inPlace).map fun a => some ⟨a, b'.flipSign⟩

/-- `BareissAlgorithm` of integers — Matrix/Math.hpp:234-265 for `Dim = n + 1`. The negation is computed in the promoted type. -/
def bareissInt {n : ℕ} (t : IntTy) (m : Matrix (Fin (n + 1)) (Fin (n + 1)) ℤ) : Option ℤ :=
  (forUp n 0 (fun k => bareissStepInt t k.castSucc) (some (some ⟨fun i j => m i j, false⟩))).bind fun s => match s with
    | none => some 0
    | some b =>
      let x := b.inPlace (Fin.last n) (Fin.last n)
      if b.flipSign then ((promote t).result (-conv (promote t) x)).map (conv t) else some x

end
end Mathter
