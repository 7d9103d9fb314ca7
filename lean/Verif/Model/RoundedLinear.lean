import Verif.Model.LinearSolve
import Verif.Model.Matrix
import Verif.Model.RoundedReduce

/-!
# Rounded evaluation of matrix products, triangular solvers and LU decompositions

The floating-point operations of `include/Mathter/Matrix/Arithmetic.hpp` (products), `include/Mathter/Matrix/Algorithm.hpp` and
`include/Mathter/Decompositions/DecomposeLU.hpp` with a rounding `fl` after every operation, for real element types. `fl` has no overflow or
underflow. The products are at storage level, the solvers and decompositions at element level like `Verif.Model.LinearSolve`.
-/

namespace Mathter.Fl
variable {c : Cfg} {r k n m : ℕ} {o : Order} {L L' : Layout} {p1 p2 p3 : Bool}

/-- `a * b + c` in `madd` — Common/Functional.hpp:32-72: two roundings or, where the hardware has the instruction or the compiler contracts the
expression, one. `op` may choose differently for different operands. -/
def IsMulAdd (fl : ℝ → ℝ) (op : ℝ → ℝ → ℝ → ℝ) : Prop := ∀ a b d, op a b d = fl (fl (a * b) + d) ∨ op a b d = fl (a * b + d)

/-- `a - b * c` of floats, with two roundings or (contracted by the compiler) one. (used in Decompositions/DecomposeLU.hpp:195-275 and the triangular solvers.) -/
def IsMulSub (fl : ℝ → ℝ) (op : ℝ → ℝ → ℝ → ℝ) : Prop := ∀ a b d, op a b d = fl (a - fl (b * d)) ∨ op a b d = fl (a - b * d)

/-! ## Products -/

/-- `MultiplyAdd` — Vector/Arithmetic.hpp:225-235. -/
noncomputable def multiplyAdd (op : ℝ → ℝ → ℝ → ℝ) (conv : Bool) (a : Vec c ℝ n p1) (b : Vec c ℝ n p2) (d : Vec c ℝ n p3) :
    Vec c ℝ n (p1 && p2 && p3) :=
  Vec.doTernary conv op a b d

/-- Row-major × row-major — Matrix/Arithmetic.hpp:17-36. -/
noncomputable def mulRR [NeZero k] (fl : ℝ → ℝ) (op : ℝ → ℝ → ℝ → ℝ) (conv : Bool) (m0 : Mat c ℝ r n o .row (p1 && p2))
    (lhs : Mat c ℝ r k o .row p1) (rhs : Mat c ℝ k n o .row p2) : Mat c ℝ r n o .row (p1 && p2) :=
  forUp r 0 (fun i m =>
    forUp k 1 (fun run m => m.setRow i (Vec.asPacked _ (multiplyAdd op conv (Vec.fill (lhs.get i run) : Vec c ℝ n (p1 && p2))
      (rhs.stripes run) (m.stripes i))))
      (m.setRow i (Vec.asPacked _ (Vec.scalarOp conv (fun x y => fl (x * y)) (lhs.get i 0) (rhs.stripes 0))))) m0

/-- Row-major × column-major — Matrix/Arithmetic.hpp:39-55. -/
noncomputable def mulRC (fl : ℝ → ℝ) (conv : Bool) (tb : RTree (batchSize k false)) (ts : RTree (k + 1)) (m0 : Mat c ℝ r n o .row (p1 && p2))
    (lhs : Mat c ℝ r k o .row p1) (rhs : Mat c ℝ k n o .col p2) : Mat c ℝ r n o .row (p1 && p2) :=
  Mat.fillLoop (fun i j => sum fl tb ts (mul fl conv (lhs.stripes i) (rhs.stripes j))) m0

/-- Column-major × any layout — Matrix/Arithmetic.hpp:58-75. -/
noncomputable def mulC [NeZero k] (fl : ℝ → ℝ) (op : ℝ → ℝ → ℝ → ℝ) (conv : Bool) (m0 : Mat c ℝ r n o .col (p1 && p2))
    (lhs : Mat c ℝ r k o .col p1) (rhs : Mat c ℝ k n o L p2) : Mat c ℝ r n o .col (p1 && p2) :=
  forUp n 0 (fun j m =>
    forUp k 1 (fun run m => m.setCol j (Vec.asPacked _ (multiplyAdd op conv (lhs.stripes run)
      (Vec.fill (rhs.get run j) : Vec c ℝ r (p1 && p2)) (m.stripes j))))
      (m.setCol j (Vec.asPacked _ (Vec.opScalar conv (fun x y => fl (x * y)) (lhs.stripes 0) (rhs.get 0 j))))) m0

/-- `operator*(Matrix, Matrix)` — Matrix/Arithmetic.hpp:185-191. -/
noncomputable def matMul [NeZero k] (fl : ℝ → ℝ) (op : ℝ → ℝ → ℝ → ℝ) (conv : Bool) (tb : RTree (batchSize k false)) (ts : RTree (k + 1))
    (m0 : Mat c ℝ r n o L (p1 && p2)) (lhs : Mat c ℝ r k o L p1) (rhs : Mat c ℝ k n o L' p2) : Mat c ℝ r n o L (p1 && p2) :=
  match L, L', m0, lhs, rhs with
  | .row, .row, m0, lhs, rhs => mulRR fl op conv m0 lhs rhs
  | .row, .col, m0, lhs, rhs => mulRC fl conv tb ts m0 lhs rhs
  | .col, _, m0, lhs, rhs => mulC fl op conv m0 lhs rhs

/-- vector × row-major matrix — Matrix/Arithmetic.hpp:136-147. -/
noncomputable def vecMulR [NeZero k] (fl : ℝ → ℝ) (op : ℝ → ℝ → ℝ → ℝ) (conv : Bool) (lhs : Vec c ℝ k p1) (rhs : Mat c ℝ k n .follow .row p2) :
    Vec c ℝ n (p2 && p2) :=
  forUp k 1 (fun run v => Vec.asPacked _ (multiplyAdd op conv (Vec.fill (lhs.get run) : Vec c ℝ n (p2 && p2)) (rhs.stripes run) v))
    (Vec.scalarOp conv (fun x y => fl (x * y)) (lhs.get 0) (rhs.stripes 0))

/-- vector × column-major matrix — Matrix/Arithmetic.hpp:149-160. -/
noncomputable def vecMulC (fl : ℝ → ℝ) (conv : Bool) (tb : RTree (batchSize k false)) (ts : RTree (k + 1)) (v0 : Vec c ℝ n (p1 && p2))
    (lhs : Vec c ℝ k p1) (rhs : Mat c ℝ k n .follow .col p2) : Vec c ℝ n (p1 && p2) :=
  forUp n 0 (fun j v => v.set j (sum fl tb ts (mul fl conv lhs (rhs.stripes j)))) v0

/-- `operator*(Vector, Matrix)` — Matrix/Arithmetic.hpp:290-296. Only the elements are returned, as in `Mat.vecMul`. -/
noncomputable def vecMul [NeZero k] (fl : ℝ → ℝ) (op : ℝ → ℝ → ℝ → ℝ) (conv : Bool) (tb : RTree (batchSize k false)) (ts : RTree (k + 1))
    (v0 : Vec c ℝ n (p1 && p2)) (lhs : Vec c ℝ k p1) (rhs : Mat c ℝ k n .follow L p2) : Fin n → ℝ :=
  match L, rhs with
  | .row, rhs => (vecMulR fl op conv lhs rhs).get
  | .col, rhs => (vecMulC fl conv tb ts v0 lhs rhs).get

/-- `operator*(Matrix, Vector)` — Matrix/Arithmetic.hpp:162-176, 299-305. -/
noncomputable def mulVec [NeZero k] (fl : ℝ → ℝ) (op : ℝ → ℝ → ℝ → ℝ) (conv : Bool) (tb : RTree (batchSize k false)) (ts : RTree (k + 1))
    (v0 : Vec c ℝ n (p2 && p1)) (m0 : Mat c ℝ k n .follow L.flip p1) (lhs : Mat c ℝ n k .precede L p1) (rhs : Vec c ℝ k p2) : Fin n → ℝ :=
  vecMul fl op conv tb ts v0 rhs (Mat.flipLayoutAndOrder (o := .precede) m0 lhs)

/-! ## Triangular solvers -/

/-- Body of the inner loops of the triangular solvers — Matrix/Algorithm.hpp:29-35, 57-63. -/
def elimTarget (op : ℝ → ℝ → ℝ → ℝ) (row target : Fin n) (rowANorm : Fin n → ℝ) (rowBNorm : Fin m → ℝ)
    (s : Matrix (Fin n) (Fin n) ℝ × Matrix (Fin n) (Fin m) ℝ) : Matrix (Fin n) (Fin n) ℝ × Matrix (Fin n) (Fin m) ℝ :=
  let targetA := s.1 target
  let targetB := s.2 target
  let multiplier := targetA row
  (s.1.updateRow target (fun j => op (targetA j) multiplier (rowANorm j)), s.2.updateRow target (fun j => op (targetB j) multiplier (rowBNorm j)))

open Classical in
/-- Body of the outer loop of `SolveUpperTriangular` — Matrix/Algorithm.hpp:21-36. `none`: division by zero. -/
noncomputable def solveUpperStep (fl : ℝ → ℝ) (op : ℝ → ℝ → ℝ → ℝ) (row : Fin n) (s : Matrix (Fin n) (Fin n) ℝ × Matrix (Fin n) (Fin m) ℝ) :
    Option (Matrix (Fin n) (Fin n) ℝ × Matrix (Fin n) (Fin m) ℝ) :=
  let leading := s.1 row row
  if leading = 0 then none else
    let rowANorm : Fin n → ℝ := fun j => fl (s.1 row j / leading)
    let rowBNorm : Fin m → ℝ := fun j => fl (s.2 row j / leading)
    some (forDown row.val (fun t => elimTarget op row ⟨t.val, by omega⟩ rowANorm rowBNorm) (s.1.updateRow row rowANorm, s.2.updateRow row rowBNorm))

/-- `SolveUpperTriangular(A, b)` for `PRECEDE_VECTOR` — Matrix/Algorithm.hpp:14-40. -/
noncomputable def solveUpper (fl : ℝ → ℝ) (op : ℝ → ℝ → ℝ → ℝ) (A : Matrix (Fin n) (Fin n) ℝ) (b : Matrix (Fin n) (Fin m) ℝ) :
    Option (Matrix (Fin n) (Fin m) ℝ) :=
  (forDown n (fun row (s : Option _) => s.bind (solveUpperStep fl op row)) (some (A, b))).map Prod.snd

open Classical in
/-- Body of the outer loop of `SolveLowerTriangular` — Matrix/Algorithm.hpp:49-64. -/
noncomputable def solveLowerStep (fl : ℝ → ℝ) (op : ℝ → ℝ → ℝ → ℝ) (row : Fin n) (s : Matrix (Fin n) (Fin n) ℝ × Matrix (Fin n) (Fin m) ℝ) :
    Option (Matrix (Fin n) (Fin n) ℝ × Matrix (Fin n) (Fin m) ℝ) :=
  let leading := s.1 row row
  if leading = 0 then none else
    let rowANorm : Fin n → ℝ := fun j => fl (s.1 row j / leading)
    let rowBNorm : Fin m → ℝ := fun j => fl (s.2 row j / leading)
    some (forUp n (row.val + 1) (fun t => elimTarget op row t rowANorm rowBNorm) (s.1.updateRow row rowANorm, s.2.updateRow row rowBNorm))

/-- `SolveLowerTriangular(A, b)` for `PRECEDE_VECTOR` — Matrix/Algorithm.hpp:42-67. -/
noncomputable def solveLower (fl : ℝ → ℝ) (op : ℝ → ℝ → ℝ → ℝ) (A : Matrix (Fin n) (Fin n) ℝ) (b : Matrix (Fin n) (Fin m) ℝ) :
    Option (Matrix (Fin n) (Fin m) ℝ) :=
  (forUp n 0 (fun row (s : Option _) => s.bind (solveLowerStep fl op row)) (some (A, b))).map Prod.snd

/-- `SolveUpperTriangular(A, b)` for `FOLLOW_VECTOR` — Matrix/Algorithm.hpp:70-75. -/
noncomputable def solveUpperFollow (fl : ℝ → ℝ) (op : ℝ → ℝ → ℝ → ℝ) (A : Matrix (Fin n) (Fin n) ℝ) (b : Matrix (Fin m) (Fin n) ℝ) :
    Option (Matrix (Fin m) (Fin n) ℝ) :=
  (solveLower fl op A.transpose b.transpose).map Matrix.transpose

/-- `SolveLowerTriangular(A, b)` for `FOLLOW_VECTOR` — Matrix/Algorithm.hpp:78-83. -/
noncomputable def solveLowerFollow (fl : ℝ → ℝ) (op : ℝ → ℝ → ℝ → ℝ) (A : Matrix (Fin n) (Fin n) ℝ) (b : Matrix (Fin m) (Fin n) ℝ) :
    Option (Matrix (Fin m) (Fin n) ℝ) :=
  (solveUpper fl op A.transpose b.transpose).map Matrix.transpose

/-! ## LU -/

/-- Body of the inner loop of `DecomposeLU` and `DecomposeLUP` — Decompositions/DecomposeLU.hpp:217-223, 258-264. -/
noncomputable def luElim (fl : ℝ → ℝ) (op : ℝ → ℝ → ℝ → ℝ) (col row : Fin n) (pivotRow : Fin n → ℝ) (s : LU ℝ n) : LU ℝ n :=
  let target := s.U row col
  let scale := fl (target / pivotRow col)
  let U := s.U.updateRow row (fun j => op (s.U row j) (pivotRow j) scale)
  ⟨Matrix.of fun i j => if i = row ∧ j = col then scale else s.L i j, Matrix.of fun i j => if i = row ∧ j = col then 0 else U i j⟩

open Classical in
/-- `DecomposeLU(m)` for `Dim = n + 1` — Decompositions/DecomposeLU.hpp:207-227. -/
noncomputable def decomposeLU (fl : ℝ → ℝ) (op : ℝ → ℝ → ℝ → ℝ) (A : Matrix (Fin (n + 1)) (Fin (n + 1)) ℝ) : Option (LU ℝ (n + 1)) :=
  forUp n 0 (fun col (s : Option _) => s.bind fun s =>
    let pivotRow := s.U col.castSucc
    if pivotRow col.castSucc = 0 then none
    else some (forUp (n + 1) (col.val + 1) (fun row => luElim fl op col.castSucc row pivotRow) s)) (some ⟨1, A⟩)

open Classical in
/-- Body of the outer loop of `DecomposeLUP` — Decompositions/DecomposeLU.hpp:242-267. -/
noncomputable def lupStep (fl : ℝ → ℝ) (op : ℝ → ℝ → ℝ → ℝ) (col : Fin n) (s : LUP ℝ n) : LUP ℝ n :=
  let piv := maxElementIdx (fun i => |s.U i col|) col
  let pivotRow := s.U piv
  if pivotRow col ≠ 0 then
    -- Swap pivot row and the current row.
    let U := s.U.updateRow piv (s.U col)
    let U := U.updateRow col pivotRow
    let P : Fin n → Fin n := fun i => if i = piv then s.P col else if i = col then s.P piv else s.P i
    let L := forUp col.val 0 (fun i (L : Matrix (Fin n) (Fin n) ℝ) => Matrix.of fun r c =>
      if c.val = i.val then (if r = piv then L col c else if r = col then L piv c else L r c) else L r c) s.L
    -- Zero out column as usual business.
    let lu := forUp n (col.val + 1) (fun row => luElim fl op col row pivotRow) (⟨L, U⟩ : LU ℝ n)
    ⟨lu.L, lu.U, P⟩
  else s

/-- `DecomposeLUP(m)` for `Dim = n + 1` — Decompositions/DecomposeLU.hpp:231-270. -/
noncomputable def decomposeLUP (fl : ℝ → ℝ) (op : ℝ → ℝ → ℝ → ℝ) (A : Matrix (Fin (n + 1)) (Fin (n + 1)) ℝ) : LUP ℝ (n + 1) :=
  forUp n 0 (fun col => lupStep fl op col.castSucc) ⟨1, A, id⟩

/-- `DecompositionLU::Solve` for `PRECEDE_VECTOR` — Decompositions/DecomposeLU.hpp:46-54. -/
noncomputable def luSolve (fl : ℝ → ℝ) (op : ℝ → ℝ → ℝ → ℝ) (L U : Matrix (Fin n) (Fin n) ℝ) (b : Matrix (Fin n) (Fin m) ℝ) :
    Option (Matrix (Fin n) (Fin m) ℝ) :=
  (solveLower fl op L b).bind fun Ux => solveUpper fl op U Ux

/-- `DecompositionLU::Solve` for `FOLLOW_VECTOR` — Decompositions/DecomposeLU.hpp:55-60. -/
noncomputable def luSolveFollow (fl : ℝ → ℝ) (op : ℝ → ℝ → ℝ → ℝ) (L U : Matrix (Fin n) (Fin n) ℝ) (b : Matrix (Fin m) (Fin n) ℝ) :
    Option (Matrix (Fin m) (Fin n) ℝ) :=
  (solveUpperFollow fl op U b).bind fun xL => solveLowerFollow fl op L xL

/-- `DecompositionLUP::Solve` for `PRECEDE_VECTOR` — Decompositions/DecomposeLU.hpp:125-130. -/
noncomputable def lupSolve (fl : ℝ → ℝ) (op : ℝ → ℝ → ℝ → ℝ) (d : LUP ℝ n) (b0 b : Matrix (Fin n) (Fin m) ℝ) : Option (Matrix (Fin n) (Fin m) ℝ) :=
  luSolve fl op d.L d.U (permuteRows d.P b0 b)

/-- `DecompositionLUP::Solve` for `FOLLOW_VECTOR` — Decompositions/DecomposeLU.hpp:131-134. -/
noncomputable def lupSolveFollow (fl : ℝ → ℝ) (op : ℝ → ℝ → ℝ → ℝ) (d : LUP ℝ n) (b0 b : Matrix (Fin m) (Fin n) ℝ) :
    Option (Matrix (Fin m) (Fin n) ℝ) :=
  (luSolveFollow fl op d.L d.U b).map (inversePermuteCols d.P b0)

/-- `Inverse(m)` for dimensions 1 and 5 and above — Matrix/Math.hpp:444-450, DecomposeLU.hpp:148-151, for `PRECEDE_VECTOR`. -/
noncomputable def inverseLUP (fl : ℝ → ℝ) (op : ℝ → ℝ → ℝ → ℝ) (b0 A : Matrix (Fin (n + 1)) (Fin (n + 1)) ℝ) :
    Option (Matrix (Fin (n + 1)) (Fin (n + 1)) ℝ) :=
  lupSolve fl op (decomposeLUP fl op A) b0 1

end Mathter.Fl
