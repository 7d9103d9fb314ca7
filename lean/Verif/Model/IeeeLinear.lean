import Verif.Model.Ieee
import Verif.Model.Determinant
import Verif.Model.LinearSolve
import Verif.Model.Matrix

/-!
# Matrix algebra on floating-point values with infinities and NaN

Products (`include/Mathter/Matrix/Arithmetic.hpp`), determinants and inverses (`include/Mathter/Matrix/Math.hpp`), triangular solvers
(`include/Mathter/Matrix/Algorithm.hpp`) and LU decompositions (`include/Mathter/Decompositions/DecomposeLU.hpp`) for real floating-point element types
with all their values (`Fx`). `madd`, `msub`, `pd` are `a * b + d`, `d - a * b` and `a * b - c * d`, which may be fused. A division by zero is an infinity
or NaN as in IEEE 754; the signs of zeros are not represented (the sign of such an infinity is arbitrary). Same structure as `Model/RoundedLinear`,
`Model/RoundedDeterminant` and `Model/Determinant`.
-/

namespace Mathter

namespace Fx

/-- The values of `a * b + d`: with a rounded product, or fused. (Common/Functional.hpp:32-72.) -/
def IsMulAdd (fl : ℝ → Fx) (op : Fx → Fx → Fx → Fx) : Prop :=
  ∀ a b d, op a b d = add fl (mul fl a b) d ∨ op a b d = add fl (mul .fin a b) d

/-- The values of `d - a * b`: with a rounded product, or fused. (used in Matrix/Algorithm.hpp:29-35, Decompositions/DecomposeLU.hpp:217-223.) -/
def IsMulSub (fl : ℝ → Fx) (op : Fx → Fx → Fx → Fx) : Prop :=
  ∀ d a b, op d a b = sub fl d (mul fl a b) ∨ op d a b = sub fl d (mul .fin a b)

/-- The values of `a * b - c * d`: with rounded products, or with one of them fused. (used in Matrix/Math.hpp:168, 180, 260, 333-335.) -/
def IsProdDiff (fl : ℝ → Fx) (pd : Fx → Fx → Fx → Fx → Fx) : Prop :=
  ∀ a b c d, pd a b c d = sub fl (mul fl a b) (mul fl c d) ∨ pd a b c d = sub fl (mul .fin a b) (mul fl c d) ∨
    pd a b c d = sub fl (mul fl a b) (mul .fin c d)

/-- `x == 0`: false for NaN. (used in Matrix/Math.hpp:240-255, Decompositions/DecomposeLU.hpp:249.) -/
noncomputable def isZero : Fx → Bool
  | .fin x => decide (x = 0)
  | _ => false

end Fx

namespace Ie
variable {c : Cfg} {r k n m : ℕ} {o : Order} {L L' : Layout} {p1 p2 p3 : Bool}

/-- The identity matrix. (Transforms/IdentityBuilder.hpp:20-33.) -/
noncomputable def one : Matrix (Fin n) (Fin n) Fx := Matrix.of fun i j => if i = j then .fin 1 else .fin 0

/-! ## Products -/

/-- `MultiplyAdd` — Vector/Arithmetic.hpp:225-235. -/
noncomputable def multiplyAdd (op : Fx → Fx → Fx → Fx) (conv : Bool) (a : Vec c Fx n p1) (b : Vec c Fx n p2) (d : Vec c Fx n p3) :
    Vec c Fx n (p1 && p2 && p3) :=
  Vec.doTernary conv op a b d

/-- Row-major × row-major — Matrix/Arithmetic.hpp:17-36. -/
noncomputable def mulRR [NeZero k] (fl : ℝ → Fx) (op : Fx → Fx → Fx → Fx) (conv : Bool) (m0 : Mat c Fx r n o .row (p1 && p2))
    (lhs : Mat c Fx r k o .row p1) (rhs : Mat c Fx k n o .row p2) : Mat c Fx r n o .row (p1 && p2) :=
  forUp r 0 (fun i m =>
    forUp k 1 (fun run m => m.setRow i (Vec.asPacked _ (multiplyAdd op conv (Vec.fill (lhs.get i run) : Vec c Fx n (p1 && p2))
      (rhs.stripes run) (m.stripes i))))
      (m.setRow i (Vec.asPacked _ (Vec.scalarOp conv (Fx.mul fl) (lhs.get i 0) (rhs.stripes 0))))) m0

/-- Row-major × column-major — Matrix/Arithmetic.hpp:39-55. -/
noncomputable def mulRC (fl : ℝ → Fx) (conv : Bool) (tb : RTree (batchSize k false)) (ts : RTree (k + 1)) (m0 : Mat c Fx r n o .row (p1 && p2))
    (lhs : Mat c Fx r k o .row p1) (rhs : Mat c Fx k n o .col p2) : Mat c Fx r n o .row (p1 && p2) :=
  Mat.fillLoop (fun i j => dot fl conv tb ts (lhs.stripes i) (rhs.stripes j)) m0

/-- Column-major × any layout — Matrix/Arithmetic.hpp:58-75. -/
noncomputable def mulC [NeZero k] (fl : ℝ → Fx) (op : Fx → Fx → Fx → Fx) (conv : Bool) (m0 : Mat c Fx r n o .col (p1 && p2))
    (lhs : Mat c Fx r k o .col p1) (rhs : Mat c Fx k n o L p2) : Mat c Fx r n o .col (p1 && p2) :=
  forUp n 0 (fun j m =>
    forUp k 1 (fun run m => m.setCol j (Vec.asPacked _ (multiplyAdd op conv (lhs.stripes run)
      (Vec.fill (rhs.get run j) : Vec c Fx r (p1 && p2)) (m.stripes j))))
      (m.setCol j (Vec.asPacked _ (Vec.opScalar conv (Fx.mul fl) (lhs.stripes 0) (rhs.get 0 j))))) m0

/-- `operator*(Matrix, Matrix)` — Matrix/Arithmetic.hpp:185-191. -/
noncomputable def matMul [NeZero k] (fl : ℝ → Fx) (op : Fx → Fx → Fx → Fx) (conv : Bool) (tb : RTree (batchSize k false)) (ts : RTree (k + 1))
    (m0 : Mat c Fx r n o L (p1 && p2)) (lhs : Mat c Fx r k o L p1) (rhs : Mat c Fx k n o L' p2) : Mat c Fx r n o L (p1 && p2) :=
  match L, L', m0, lhs, rhs with
  | .row, .row, m0, lhs, rhs => mulRR fl op conv m0 lhs rhs
  | .row, .col, m0, lhs, rhs => mulRC fl conv tb ts m0 lhs rhs
  | .col, _, m0, lhs, rhs => mulC fl op conv m0 lhs rhs

/-- vector × row-major matrix — Matrix/Arithmetic.hpp:136-147. -/
noncomputable def vecMulR [NeZero k] (fl : ℝ → Fx) (op : Fx → Fx → Fx → Fx) (conv : Bool) (lhs : Vec c Fx k p1) (rhs : Mat c Fx k n .follow .row p2) :
    Vec c Fx n (p2 && p2) :=
  forUp k 1 (fun run v => Vec.asPacked _ (multiplyAdd op conv (Vec.fill (lhs.get run) : Vec c Fx n (p2 && p2)) (rhs.stripes run) v))
    (Vec.scalarOp conv (Fx.mul fl) (lhs.get 0) (rhs.stripes 0))

/-- vector × column-major matrix — Matrix/Arithmetic.hpp:149-160. -/
noncomputable def vecMulC (fl : ℝ → Fx) (conv : Bool) (tb : RTree (batchSize k false)) (ts : RTree (k + 1)) (v0 : Vec c Fx n (p1 && p2))
    (lhs : Vec c Fx k p1) (rhs : Mat c Fx k n .follow .col p2) : Vec c Fx n (p1 && p2) :=
  forUp n 0 (fun j v => v.set j (dot fl conv tb ts lhs (rhs.stripes j))) v0

/-- `operator*(Vector, Matrix)` — Matrix/Arithmetic.hpp:290-296. Only the elements are returned, as in `Mat.vecMul`. -/
noncomputable def vecMul [NeZero k] (fl : ℝ → Fx) (op : Fx → Fx → Fx → Fx) (conv : Bool) (tb : RTree (batchSize k false)) (ts : RTree (k + 1))
    (v0 : Vec c Fx n (p1 && p2)) (lhs : Vec c Fx k p1) (rhs : Mat c Fx k n .follow L p2) : Fin n → Fx :=
  match L, rhs with
  | .row, rhs => (vecMulR fl op conv lhs rhs).get
  | .col, rhs => (vecMulC fl conv tb ts v0 lhs rhs).get

/-- `operator*(Matrix, Vector)` — Matrix/Arithmetic.hpp:162-176, 299-305. -/
noncomputable def mulVec [NeZero k] (fl : ℝ → Fx) (op : Fx → Fx → Fx → Fx) (conv : Bool) (tb : RTree (batchSize k false)) (ts : RTree (k + 1))
    (v0 : Vec c Fx n (p2 && p1)) (m0 : Mat c Fx k n .follow L.flip p1) (lhs : Mat c Fx n k .precede L p1) (rhs : Vec c Fx k p2) : Fin n → Fx :=
  vecMul fl op conv tb ts v0 rhs (Mat.flipLayoutAndOrder (o := .precede) m0 lhs)

/-! ## Triangular solvers -/

/-- Body of the inner loops of the triangular solvers — Matrix/Algorithm.hpp:29-35, 57-63. -/
def elimTarget (op : Fx → Fx → Fx → Fx) (row target : Fin n) (rowANorm : Fin n → Fx) (rowBNorm : Fin m → Fx)
    (s : Matrix (Fin n) (Fin n) Fx × Matrix (Fin n) (Fin m) Fx) : Matrix (Fin n) (Fin n) Fx × Matrix (Fin n) (Fin m) Fx :=
  let targetA := s.1 target
  let targetB := s.2 target
  let multiplier := targetA row
  (s.1.updateRow target (fun j => op (targetA j) multiplier (rowANorm j)), s.2.updateRow target (fun j => op (targetB j) multiplier (rowBNorm j)))

/-- Body of the outer loop of `SolveUpperTriangular` — Matrix/Algorithm.hpp:21-36. -/
noncomputable def solveUpperStep (fl : ℝ → Fx) (op : Fx → Fx → Fx → Fx) (row : Fin n) (s : Matrix (Fin n) (Fin n) Fx × Matrix (Fin n) (Fin m) Fx) :
    Matrix (Fin n) (Fin n) Fx × Matrix (Fin n) (Fin m) Fx :=
  let leading := s.1 row row
  let rowANorm : Fin n → Fx := fun j => Fx.div fl (s.1 row j) leading
  let rowBNorm : Fin m → Fx := fun j => Fx.div fl (s.2 row j) leading
  forDown row.val (fun t => elimTarget op row ⟨t.val, by omega⟩ rowANorm rowBNorm) (s.1.updateRow row rowANorm, s.2.updateRow row rowBNorm)

/-- `SolveUpperTriangular(A, b)` for `PRECEDE_VECTOR` — Matrix/Algorithm.hpp:14-40. -/
noncomputable def solveUpper (fl : ℝ → Fx) (op : Fx → Fx → Fx → Fx) (A : Matrix (Fin n) (Fin n) Fx) (b : Matrix (Fin n) (Fin m) Fx) :
    Matrix (Fin n) (Fin m) Fx :=
  (forDown n (fun row => solveUpperStep fl op row) (A, b)).2

/-- Body of the outer loop of `SolveLowerTriangular` — Matrix/Algorithm.hpp:49-64. -/
noncomputable def solveLowerStep (fl : ℝ → Fx) (op : Fx → Fx → Fx → Fx) (row : Fin n) (s : Matrix (Fin n) (Fin n) Fx × Matrix (Fin n) (Fin m) Fx) :
    Matrix (Fin n) (Fin n) Fx × Matrix (Fin n) (Fin m) Fx :=
  let leading := s.1 row row
  let rowANorm : Fin n → Fx := fun j => Fx.div fl (s.1 row j) leading
  let rowBNorm : Fin m → Fx := fun j => Fx.div fl (s.2 row j) leading
  forUp n (row.val + 1) (fun t => elimTarget op row t rowANorm rowBNorm) (s.1.updateRow row rowANorm, s.2.updateRow row rowBNorm)

/-- `SolveLowerTriangular(A, b)` for `PRECEDE_VECTOR` — Matrix/Algorithm.hpp:42-67. -/
noncomputable def solveLower (fl : ℝ → Fx) (op : Fx → Fx → Fx → Fx) (A : Matrix (Fin n) (Fin n) Fx) (b : Matrix (Fin n) (Fin m) Fx) :
    Matrix (Fin n) (Fin m) Fx :=
  (forUp n 0 (fun row => solveLowerStep fl op row) (A, b)).2

/-- `SolveUpperTriangular(A, b)` for `FOLLOW_VECTOR` — Matrix/Algorithm.hpp:70-75. -/
noncomputable def solveUpperFollow (fl : ℝ → Fx) (op : Fx → Fx → Fx → Fx) (A : Matrix (Fin n) (Fin n) Fx) (b : Matrix (Fin m) (Fin n) Fx) :
    Matrix (Fin m) (Fin n) Fx :=
  (solveLower fl op A.transpose b.transpose).transpose

/-- `SolveLowerTriangular(A, b)` for `FOLLOW_VECTOR` — Matrix/Algorithm.hpp:78-83. -/
noncomputable def solveLowerFollow (fl : ℝ → Fx) (op : Fx → Fx → Fx → Fx) (A : Matrix (Fin n) (Fin n) Fx) (b : Matrix (Fin m) (Fin n) Fx) :
    Matrix (Fin m) (Fin n) Fx :=
  (solveUpper fl op A.transpose b.transpose).transpose

/-! ## LU -/

/-- Body of the inner loop of `DecomposeLU` and `DecomposeLUP` — Decompositions/DecomposeLU.hpp:217-223, 258-264. -/
noncomputable def luElim (fl : ℝ → Fx) (op : Fx → Fx → Fx → Fx) (col row : Fin n) (pivotRow : Fin n → Fx) (s : LU Fx n) : LU Fx n :=
  let target := s.U row col
  let scale := Fx.div fl target (pivotRow col)
  let U := s.U.updateRow row (fun j => op (s.U row j) (pivotRow j) scale)
  ⟨Matrix.of fun i j => if i = row ∧ j = col then scale else s.L i j, Matrix.of fun i j => if i = row ∧ j = col then .fin 0 else U i j⟩

/-- `DecomposeLU(m)` for `Dim = n + 1` — Decompositions/DecomposeLU.hpp:207-227. -/
noncomputable def decomposeLU (fl : ℝ → Fx) (op : Fx → Fx → Fx → Fx) (A : Matrix (Fin (n + 1)) (Fin (n + 1)) Fx) : LU Fx (n + 1) :=
  forUp n 0 (fun col s =>
    let pivotRow := s.U col.castSucc
    forUp (n + 1) (col.val + 1) (fun row => luElim fl op col.castSucc row pivotRow) s) ⟨one, A⟩

/-- `std::max_element(abs.begin() + lo, abs.end())` — Decompositions/DecomposeLU.hpp:244. -/
noncomputable def maxElementIdx (a : Fin n → Fx) (lo : Fin n) : Fin n :=
  forUp n (lo.val + 1) (fun i best => if Fx.lt (a best) (a i) then i else best) lo

/-- Body of the outer loop of `DecomposeLUP` — Decompositions/DecomposeLU.hpp:242-267. -/
noncomputable def lupStep (fl : ℝ → Fx) (op : Fx → Fx → Fx → Fx) (col : Fin n) (s : LUP Fx n) : LUP Fx n :=
  let piv := maxElementIdx (fun i => (s.U i col).abs) col
  let pivotRow := s.U piv
  if (pivotRow col).isZero then s
  else
    -- Swap pivot row and the current row.
    let U := s.U.updateRow piv (s.U col)
    let U := U.updateRow col pivotRow
    let P : Fin n → Fin n := fun i => if i = piv then s.P col else if i = col then s.P piv else s.P i
    let L := forUp col.val 0 (fun i (L : Matrix (Fin n) (Fin n) Fx) => Matrix.of fun r c =>
      if c.val = i.val then (if r = piv then L col c else if r = col then L piv c else L r c) else L r c) s.L
    -- Zero out column as usual business.
    let lu := forUp n (col.val + 1) (fun row => luElim fl op col row pivotRow) (⟨L, U⟩ : LU Fx n)
    ⟨lu.L, lu.U, P⟩

/-- `DecomposeLUP(m)` for `Dim = n + 1` — Decompositions/DecomposeLU.hpp:231-270. -/
noncomputable def decomposeLUP (fl : ℝ → Fx) (op : Fx → Fx → Fx → Fx) (A : Matrix (Fin (n + 1)) (Fin (n + 1)) Fx) : LUP Fx (n + 1) :=
  forUp n 0 (fun col => lupStep fl op col.castSucc) ⟨one, A, id⟩

/-- `DecompositionLU::Solve` for `PRECEDE_VECTOR` — Decompositions/DecomposeLU.hpp:46-54. -/
noncomputable def luSolve (fl : ℝ → Fx) (op : Fx → Fx → Fx → Fx) (L U : Matrix (Fin n) (Fin n) Fx) (b : Matrix (Fin n) (Fin m) Fx) :
    Matrix (Fin n) (Fin m) Fx :=
  solveUpper fl op U (solveLower fl op L b)

/-- `DecompositionLU::Solve` for `FOLLOW_VECTOR` — Decompositions/DecomposeLU.hpp:55-60. -/
noncomputable def luSolveFollow (fl : ℝ → Fx) (op : Fx → Fx → Fx → Fx) (L U : Matrix (Fin n) (Fin n) Fx) (b : Matrix (Fin m) (Fin n) Fx) :
    Matrix (Fin m) (Fin n) Fx :=
  solveLowerFollow fl op L (solveUpperFollow fl op U b)

/-- `DecompositionLUP::Solve` for `PRECEDE_VECTOR` — Decompositions/DecomposeLU.hpp:125-130. -/
noncomputable def lupSolve (fl : ℝ → Fx) (op : Fx → Fx → Fx → Fx) (d : LUP Fx n) (b0 b : Matrix (Fin n) (Fin m) Fx) : Matrix (Fin n) (Fin m) Fx :=
  luSolve fl op d.L d.U (permuteRows d.P b0 b)

/-- `DecompositionLUP::Solve` for `FOLLOW_VECTOR` — Decompositions/DecomposeLU.hpp:131-134. -/
noncomputable def lupSolveFollow (fl : ℝ → Fx) (op : Fx → Fx → Fx → Fx) (d : LUP Fx n) (b0 b : Matrix (Fin m) (Fin n) Fx) : Matrix (Fin m) (Fin n) Fx :=
  inversePermuteCols d.P b0 (luSolveFollow fl op d.L d.U b)

/-- `Inverse(m)` for dimensions 1 and 5 and above — Matrix/Math.hpp:444-450, DecomposeLU.hpp:148-151; the order of the matrix decides how `Solve`
works. -/
noncomputable def inverseLUP (fl : ℝ → Fx) (op : Fx → Fx → Fx → Fx) (o : Order) (b0 A : Matrix (Fin (n + 1)) (Fin (n + 1)) Fx) :
    Matrix (Fin (n + 1)) (Fin (n + 1)) Fx :=
  match o with
  | .precede => lupSolve fl op (decomposeLUP fl op A) b0 one
  | .follow => lupSolveFollow fl op (decomposeLUP fl op A) b0 one

/-! ## Determinants and inverses of dimensions 2, 3 and 4 -/

/-- `operator*(Vector, Vector)` element by element — Vector/Arithmetic.hpp:51-55, 142. -/
noncomputable def stripeMul (fl : ℝ → Fx) (a b : Fin n → Fx) : Fin n → Fx := fun i => Fx.mul fl (a i) (b i)

/-- `a * b - c * d` of vectors, element by element. (used in Matrix/Math.hpp:180, 333-335.) -/
noncomputable def vpd (pd : Fx → Fx → Fx → Fx → Fx) (a b c d : Fin n → Fx) : Fin n → Fx := fun i => pd (a i) (b i) (c i) (d i)

/-- `Sum` of a temporary vector of packing `p` — Vector/Math.hpp:142-153. -/
noncomputable def vsum (c : Cfg) (p : Bool) (fl : ℝ → Fx) (tb : RTree (batchSize n false)) (ts : RTree (n + 1)) (v : Fin n → Fx) : Fx :=
  sum fl tb ts (Vec.ofFn v : Vec c Fx n p)

/-- `Determinant(Matrix<T, 2, 2>)` — Matrix/Math.hpp:166-169. -/
noncomputable def det2 (pd : Fx → Fx → Fx → Fx → Fx) (m : Matrix (Fin 2) (Fin 2) Fx) : Fx := pd (m 0 0) (m 1 1) (m 1 0) (m 0 1)

/-- `Determinant(Matrix<T, 3, 3>)` — Matrix/Math.hpp:172-183; also Matrix/Math.hpp:344. -/
noncomputable def det3Stripes (c : Cfg) (p : Bool) (fl : ℝ → Fx) (pd : Fx → Fx → Fx → Fx → Fx) (tb : RTree (batchSize 3 false)) (ts : RTree (3 + 1))
    (s : Fin 3 → Fin 3 → Fx) : Fx :=
  let r0_zyx := sw (s 0) ![2, 1, 0]
  let r1_xzy := sw (s 1) ![0, 2, 1]
  let r1_yxz := sw (s 1) ![1, 0, 2]
  let r2_yxz := sw (s 2) ![1, 0, 2]
  let r2_xzy := sw (s 2) ![0, 2, 1]
  vsum c p fl tb ts (stripeMul fl r0_zyx (vpd pd r1_xzy r2_yxz r1_yxz r2_xzy))

/-- `Determinant(Matrix<T, 4, 4>)` — Matrix/Math.hpp:186-228; also Matrix/Math.hpp:409-434. -/
noncomputable def det4Stripes (c : Cfg) (p : Bool) (fl : ℝ → Fx) (pd : Fx → Fx → Fx → Fx → Fx) (madd : Fx → Fx → Fx → Fx)
    (tb3 : RTree (batchSize 3 false)) (ts3 : RTree (3 + 1)) (tb4 : RTree (batchSize 4 false)) (ts4 : RTree (4 + 1)) (s : Fin 4 → Fin 4 → Fx) : Fx :=
  let evenPair : Fin 4 → Fx := ![.fin 1, .fin (-1), .fin (-1), .fin 1]
  let oddPair : Fin 4 → Fx := ![.fin (-1), .fin 1, .fin 1, .fin (-1)]
  let r0 := s 0
  let r1 := s 1
  let r2 := s 2
  let r3 := s 3
  let r2_zwzw := sw r2 ![2, 3, 2, 3]
  let r0_yyxx := sw r0 ![1, 1, 0, 0]
  let r1_wwxy := sw r1 ![3, 3, 0, 1]
  let r2_xyzz := sw r2 ![0, 1, 2, 2]
  let r3_wwww := sw r3 ![3, 3, 3, 3]
  let r1_zzxy := sw r1 ![2, 2, 0, 1]
  let r0_yxyx := sw r0 ![1, 0, 1, 0]
  let r3_xxyy := sw r3 ![0, 0, 1, 1]
  let r1_wzwz := sw r1 ![3, 2, 3, 2]
  let r2_xyww := sw r2 ![0, 1, 3, 3]
  let r3_zzzz := sw r3 ![2, 2, 2, 2]
  let r2_yxz := sw r2 ![1, 0, 2]
  let r3_xzy := sw r3 ![0, 2, 1]
  let r2_xzy := sw r2 ![0, 2, 1]
  let r3_yxz := sw r3 ![1, 0, 2]
  let r2_yxw := sw r2 ![1, 0, 3]
  let r1_zyx := sw r1 ![2, 1, 0]
  let r3_yxw := sw r3 ![1, 0, 3]
  let r2_xwy := sw r2 ![0, 3, 1]
  let r3_xwy := sw r3 ![0, 3, 1]
  let r1_wyx := sw r1 ![3, 1, 0]
  let r0_w := r0 3
  let r0_z := r0 2
  let s1 := vsum c p fl tb4 ts4 (stripeMul fl evenPair (stripeMul fl (stripeMul fl (stripeMul fl r0_yyxx r1_wzwz) r2_zwzw) r3_xxyy))
  let s2 := vsum c p fl tb4 ts4 (stripeMul fl oddPair (stripeMul fl (stripeMul fl (stripeMul fl r0_yxyx r1_wwxy) r2_xyww) r3_zzzz))
  let s3 := vsum c p fl tb4 ts4 (stripeMul fl evenPair (stripeMul fl (stripeMul fl (stripeMul fl r0_yxyx r1_zzxy) r2_xyzz) r3_wwww))
  madd r0_z (vsum c p fl tb3 ts3 (stripeMul fl r1_wyx (vpd pd r2_xwy r3_yxw r2_yxw r3_xwy)))
    (madd r0_w (vsum c p fl tb3 ts3 (stripeMul fl r1_zyx (vpd pd r2_yxz r3_xzy r2_xzy r3_yxz))) (Fx.add fl (Fx.add fl s1 s2) s3))

/-- `Inverse(Matrix<T, 2, 2>)` — Matrix/Math.hpp:297-311. -/
noncomputable def inv2Stripes (fl : ℝ → Fx) (pd : Fx → Fx → Fx → Fx → Fx) (s : Fin 2 → Fin 2 → Fx) : (Fin 2 → Fin 2 → Fx) :=
  let det := pd (s 0 0) (s 1 1) (s 0 1) (s 1 0)
  fun i j => Fx.div fl ((![![s 1 1, (s 0 1).neg], ![(s 1 0).neg, s 0 0]] : Fin 2 → Fin 2 → Fx) i j) det

/-- `result` of `Inverse(Matrix<T, 3, 3>)` before the final division — Matrix/Math.hpp:315-342. -/
noncomputable def cof3Stripes (pd : Fx → Fx → Fx → Fx → Fx) (s : Fin 3 → Fin 3 → Fx) : Fin 3 → Fin 3 → Fx :=
  let r0_zxy := sw (s 0) ![2, 0, 1]
  let r0_yzx := sw (s 0) ![1, 2, 0]
  let r1_yzx := sw (s 1) ![1, 2, 0]
  let r1_zxy := sw (s 1) ![2, 0, 1]
  let r2_zxy := sw (s 2) ![2, 0, 1]
  let r2_yzx := sw (s 2) ![1, 2, 0]
  let c0 := vpd pd r1_yzx r2_zxy r1_zxy r2_yzx
  let c1 := vpd pd r0_zxy r2_yzx r0_yzx r2_zxy
  let c2 := vpd pd r0_yzx r1_zxy r0_zxy r1_yzx
  let result : Fin 3 → Fin 3 → Fx := ![![c0 0, c1 0, c2 0], ![c0 1, c1 1, c2 1], ![c0 2, c1 2, c2 2]]
  result

/-- `Inverse(Matrix<T, 3, 3>)` — Matrix/Math.hpp:315-347. -/
noncomputable def inv3Stripes (c : Cfg) (p : Bool) (fl : ℝ → Fx) (pd : Fx → Fx → Fx → Fx → Fx) (tb : RTree (batchSize 3 false)) (ts : RTree (3 + 1))
    (s : Fin 3 → Fin 3 → Fx) : (Fin 3 → Fin 3 → Fx) :=
  let det := det3Stripes c p fl pd tb ts s
  fun i j => Fx.div fl (cof3Stripes pd s i j) det

/-- `sign * (a0 * b0 - a1 * b1 - a2 * b2 + a3 * b3 + a4 * b4 - a5 * b5)` of vectors, element by element. (used in Matrix/Math.hpp:393-396.) -/
noncomputable def six (fl : ℝ → Fx) (pd : Fx → Fx → Fx → Fx → Fx) (madd msub : Fx → Fx → Fx → Fx) 
    (sign a0 b0 a1 b1 a2 b2 a3 b3 a4 b4 a5 b5 : Fin 4 → Fx) : Fin 4 → Fx := fun i =>
  Fx.mul fl (sign i) (msub (madd (a4 i) (b4 i) (madd (a3 i) (b3 i) (msub (pd (a0 i) (b0 i) (a1 i) (b1 i)) (a2 i) (b2 i)))) (a5 i) (b5 i))

/-- `result` of `Inverse(Matrix<T, 4, 4>)` before the final division — Matrix/Math.hpp:351-404. -/
noncomputable def cof4Stripes (fl : ℝ → Fx) (pd : Fx → Fx → Fx → Fx → Fx) (madd msub : Fx → Fx → Fx → Fx) (s : Fin 4 → Fin 4 → Fx) : Fin 4 → Fin 4 → Fx :=
  let even : Fin 4 → Fx := ![.fin 1, .fin (-1), .fin 1, .fin (-1)]
  let odd : Fin 4 → Fx := ![.fin (-1), .fin 1, .fin (-1), .fin 1]
  let r0_wwwz := sw (s 0) ![3, 3, 3, 2]
  let r0_yxxx := sw (s 0) ![1, 0, 0, 0]
  let r0_zzyy := sw (s 0) ![2, 2, 1, 1]
  let r1_wwwz := sw (s 1) ![3, 3, 3, 2]
  let r1_yxxx := sw (s 1) ![1, 0, 0, 0]
  let r1_zzyy := sw (s 1) ![2, 2, 1, 1]
  let r2_wwwz := sw (s 2) ![3, 3, 3, 2]
  let r2_yxxx := sw (s 2) ![1, 0, 0, 0]
  let r2_zzyy := sw (s 2) ![2, 2, 1, 1]
  let r3_wwwz := sw (s 3) ![3, 3, 3, 2]
  let r3_yxxx := sw (s 3) ![1, 0, 0, 0]
  let r3_zzyy := sw (s 3) ![2, 2, 1, 1]
  let r0_wwwz_r1_yxxx := stripeMul fl r0_wwwz r1_yxxx
  let r0_wwwz_r1_zzyy := stripeMul fl r0_wwwz r1_zzyy
  let r0_yxxx_r1_wwwz := stripeMul fl r0_yxxx r1_wwwz
  let r0_yxxx_r1_zzyy := stripeMul fl r0_yxxx r1_zzyy
  let r0_zzyy_r1_wwwz := stripeMul fl r0_zzyy r1_wwwz
  let r0_zzyy_r1_yxxx := stripeMul fl r0_zzyy r1_yxxx
  let r2_wwwz_r3_yxxx := stripeMul fl r2_wwwz r3_yxxx
  let r2_wwwz_r3_zzyy := stripeMul fl r2_wwwz r3_zzyy
  let r2_yxxx_r3_wwwz := stripeMul fl r2_yxxx r3_wwwz
  let r2_yxxx_r3_zzyy := stripeMul fl r2_yxxx r3_zzyy
  let r2_zzyy_r3_wwwz := stripeMul fl r2_zzyy r3_wwwz
  let r2_zzyy_r3_yxxx := stripeMul fl r2_zzyy r3_yxxx
  let c0 := six fl pd madd msub odd r1_wwwz r2_zzyy_r3_yxxx r1_zzyy r2_wwwz_r3_yxxx r1_wwwz r2_yxxx_r3_zzyy
    r1_yxxx r2_wwwz_r3_zzyy r1_zzyy r2_yxxx_r3_wwwz r1_yxxx r2_zzyy_r3_wwwz
  let c1 := six fl pd madd msub even r0_wwwz r2_zzyy_r3_yxxx r0_zzyy r2_wwwz_r3_yxxx r0_wwwz r2_yxxx_r3_zzyy
    r0_yxxx r2_wwwz_r3_zzyy r0_zzyy r2_yxxx_r3_wwwz r0_yxxx r2_zzyy_r3_wwwz
  let c2 := six fl pd madd msub odd r0_wwwz_r1_zzyy r3_yxxx r0_zzyy_r1_wwwz r3_yxxx r0_wwwz_r1_yxxx r3_zzyy
    r0_yxxx_r1_wwwz r3_zzyy r0_zzyy_r1_yxxx r3_wwwz r0_yxxx_r1_zzyy r3_wwwz
  let c3 := six fl pd madd msub even r0_wwwz_r1_zzyy r2_yxxx r0_zzyy_r1_wwwz r2_yxxx r0_wwwz_r1_yxxx r2_zzyy
    r0_yxxx_r1_wwwz r2_zzyy r0_zzyy_r1_yxxx r2_wwwz r0_yxxx_r1_zzyy r2_wwwz
  let result : Fin 4 → Fin 4 → Fx :=
    ![![c0 0, c1 0, c2 0, c3 0], ![c0 1, c1 1, c2 1, c3 1], ![c0 2, c1 2, c2 2, c3 2], ![c0 3, c1 3, c2 3, c3 3]]
  result

/-- `Inverse(Matrix<T, 4, 4>)` — Matrix/Math.hpp:351-436. -/
noncomputable def inv4Stripes (c : Cfg) (p : Bool) (fl : ℝ → Fx) (pd : Fx → Fx → Fx → Fx → Fx) (madd msub : Fx → Fx → Fx → Fx)
    (tb3 : RTree (batchSize 3 false)) (ts3 : RTree (3 + 1)) (tb4 : RTree (batchSize 4 false)) (ts4 : RTree (4 + 1)) (s : Fin 4 → Fin 4 → Fx) :
    (Fin 4 → Fin 4 → Fx) :=
  let det := det4Stripes c p fl pd madd tb3 ts3 tb4 ts4 s
  fun i j => Fx.div fl (cof4Stripes fl pd madd msub s i j) det

/-- `Inverse` of dimension 2 for a matrix of layout `L`: stripes in, stripes out. (Matrix/Math.hpp:298-312.) -/
noncomputable def inv2 (fl : ℝ → Fx) (pd : Fx → Fx → Fx → Fx → Fx) (L : Layout) (m : Matrix (Fin 2) (Fin 2) Fx) : Matrix (Fin 2) (Fin 2) Fx :=
  stripesOf L (Matrix.of (inv2Stripes fl pd (stripesOf L m)))

/-- `Inverse` of dimension 3 for a matrix of layout `L`. (Matrix/Math.hpp:316-347.) -/
noncomputable def inv3 (c : Cfg) (p : Bool) (fl : ℝ → Fx) (pd : Fx → Fx → Fx → Fx → Fx) (tb : RTree (batchSize 3 false)) (ts : RTree (3 + 1)) (L : Layout)
    (m : Matrix (Fin 3) (Fin 3) Fx) : Matrix (Fin 3) (Fin 3) Fx :=
  stripesOf L (Matrix.of (inv3Stripes c p fl pd tb ts (stripesOf L m)))

/-- `Inverse` of dimension 4 for a matrix of layout `L`. (Matrix/Math.hpp:351-436.) -/
noncomputable def inv4 (c : Cfg) (p : Bool) (fl : ℝ → Fx) (pd : Fx → Fx → Fx → Fx → Fx) (madd msub : Fx → Fx → Fx → Fx)
    (tb3 : RTree (batchSize 3 false)) (ts3 : RTree (3 + 1)) (tb4 : RTree (batchSize 4 false)) (ts4 : RTree (4 + 1)) (L : Layout)
    (m : Matrix (Fin 4) (Fin 4) Fx) : Matrix (Fin 4) (Fin 4) Fx :=
  stripesOf L (Matrix.of (inv4Stripes c p fl pd madd msub tb3 ts3 tb4 ts4 (stripesOf L m)))

/-! ## Determinants of dimensions 1 and 5 and above -/

/-- One iteration of the loop that swaps rows — Matrix/Math.hpp:240-251; `kp` is `k - 1`. `candidate` is a reference to an element of row `i`, read
again after the swap. -/
noncomputable def bareissPivotStep (kp : Fin n) (i : Fin n) (s : Bareiss Fx n × Fx) : Bareiss Fx n × Fx :=
  let (b, minor) := s
  if minor.isZero then
    if !(b.inPlace i kp).isZero then
      let rowk1 := b.inPlace kp
      let rowi := b.inPlace i
      let swapped : Fin n → Fin n → Fx := fun r => if r = i then rowk1 else if r = kp then rowi else b.inPlace r
      (⟨swapped, !b.flipSign⟩, swapped i kp)
    else (b, minor)
  else (b, minor)

/-- The elimination loops — Matrix/Math.hpp:258-262 (in place, row by row). -/
noncomputable def bareissElim (fl : ℝ → Fx) (pd : Fx → Fx → Fx → Fx → Fx) (k : Fin n) (minor : Fx) (a : Fin n → Fin n → Fx) : Fin n → Fin n → Fx :=
  forUp n (k.val + 1) (fun i a => forUp n (k.val + 1) (fun j a =>
    fun r c => if r = i ∧ c = j then Fx.div fl (pd (a i j) (a k k) (a i k) (a k j)) minor else a r c) a) a

/-- One iteration of the outer loop — Matrix/Math.hpp:238-263; `none` is the early `return 0`. -/
noncomputable def bareissStep (fl : ℝ → Fx) (pd : Fx → Fx → Fx → Fx → Fx) (k : Fin n) (s : Option (Bareiss Fx n)) : Option (Bareiss Fx n) :=
  s.bind fun b =>
    if hk : k.val = 0 then some ⟨bareissElim fl pd k (.fin 1) b.inPlace, b.flipSign⟩
    else
      let kp : Fin n := ⟨k.val - 1, by omega⟩
      let (b', minor) := forUp n k.val (bareissPivotStep kp) (b, b.inPlace kp kp)
      if minor.isZero then none else some ⟨bareissElim fl pd k minor b'.inPlace, b'.flipSign⟩

/-- `BareissAlgorithm` — Matrix/Math.hpp:234-265 for `Dim = n + 1`. -/
noncomputable def bareiss (fl : ℝ → Fx) (pd : Fx → Fx → Fx → Fx → Fx) (m : Matrix (Fin (n + 1)) (Fin (n + 1)) Fx) : Fx :=
  match forUp n 0 (fun k => bareissStep fl pd k.castSucc) (some ⟨fun i j => m i j, false⟩) with
  | none => .fin 0
  | some b => if b.flipSign then (b.inPlace (Fin.last n) (Fin.last n)).neg else b.inPlace (Fin.last n) (Fin.last n)

end Ie

end Mathter
