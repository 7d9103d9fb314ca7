import Mathlib.Analysis.RCLike.Basic
import Mathlib.LinearAlgebra.Matrix.RowCol
import Verif.Model.Element

/-!
# Triangular solvers, LU and LUP decompositions

Models `include/Mathter/Matrix/Algorithm.hpp` and `include/Mathter/Decompositions/DecomposeLU.hpp` at element level. `m.Row(i, r)` is
`Matrix.updateRow` (C22). `none` is a division by zero. `FlipLayoutAndOrder` is the transposition of the elements (C21).
-/

namespace Mathter
universe u
variable {K : Type u} {n m : ℕ}

/-- Body of the inner loops of the triangular solvers — Matrix/Algorithm.hpp:29-35, 57-63. -/
def elimTarget [Field K] (row target : Fin n) (rowANorm : Fin n → K) (rowBNorm : Fin m → K)
    (s : Matrix (Fin n) (Fin n) K × Matrix (Fin n) (Fin m) K) : Matrix (Fin n) (Fin n) K × Matrix (Fin n) (Fin m) K :=
  let targetA := s.1 target
  let targetB := s.2 target
  let multiplier := targetA row
  (s.1.updateRow target (fun j => targetA j - multiplier * rowANorm j), s.2.updateRow target (fun j => targetB j - multiplier * rowBNorm j))

/-- Body of the outer loop of `SolveUpperTriangular` — Matrix/Algorithm.hpp:21-36. -/
def solveUpperStep [Field K] [DecidableEq K] (row : Fin n) (s : Matrix (Fin n) (Fin n) K × Matrix (Fin n) (Fin m) K) :
    Option (Matrix (Fin n) (Fin n) K × Matrix (Fin n) (Fin m) K) :=
  let leading := s.1 row row
  if leading = 0 then none else
    let rowANorm : Fin n → K := fun j => s.1 row j / leading
    let rowBNorm : Fin m → K := fun j => s.2 row j / leading
    some (forDown row.val (fun t => elimTarget row ⟨t.val, by omega⟩ rowANorm rowBNorm) (s.1.updateRow row rowANorm, s.2.updateRow row rowBNorm))

/-- `SolveUpperTriangular(A, b)` for `PRECEDE_VECTOR` — Matrix/Algorithm.hpp:14-40. -/
def solveUpper [Field K] [DecidableEq K] (A : Matrix (Fin n) (Fin n) K) (b : Matrix (Fin n) (Fin m) K) : Option (Matrix (Fin n) (Fin m) K) :=
  (forDown n (fun row (s : Option _) => s.bind (solveUpperStep row)) (some (A, b))).map Prod.snd

/-- Body of the outer loop of `SolveLowerTriangular` — Matrix/Algorithm.hpp:49-64. -/
def solveLowerStep [Field K] [DecidableEq K] (row : Fin n) (s : Matrix (Fin n) (Fin n) K × Matrix (Fin n) (Fin m) K) :
    Option (Matrix (Fin n) (Fin n) K × Matrix (Fin n) (Fin m) K) :=
  let leading := s.1 row row
  if leading = 0 then none else
    let rowANorm : Fin n → K := fun j => s.1 row j / leading
    let rowBNorm : Fin m → K := fun j => s.2 row j / leading
    some (forUp n (row.val + 1) (fun t => elimTarget row t rowANorm rowBNorm) (s.1.updateRow row rowANorm, s.2.updateRow row rowBNorm))

/-- `SolveLowerTriangular(A, b)` for `PRECEDE_VECTOR` — Matrix/Algorithm.hpp:42-67. -/
def solveLower [Field K] [DecidableEq K] (A : Matrix (Fin n) (Fin n) K) (b : Matrix (Fin n) (Fin m) K) : Option (Matrix (Fin n) (Fin m) K) :=
  (forUp n 0 (fun row (s : Option _) => s.bind (solveLowerStep row)) (some (A, b))).map Prod.snd

/-- `SolveUpperTriangular(A, b)` for `FOLLOW_VECTOR` — Matrix/Algorithm.hpp:70-75. -/
def solveUpperFollow [Field K] [DecidableEq K] (A : Matrix (Fin n) (Fin n) K) (b : Matrix (Fin m) (Fin n) K) : Option (Matrix (Fin m) (Fin n) K) :=
  (solveLower A.transpose b.transpose).map Matrix.transpose

/-- `SolveLowerTriangular(A, b)` for `FOLLOW_VECTOR` — Matrix/Algorithm.hpp:78-83. -/
def solveLowerFollow [Field K] [DecidableEq K] (A : Matrix (Fin n) (Fin n) K) (b : Matrix (Fin m) (Fin n) K) : Option (Matrix (Fin m) (Fin n) K) :=
  (solveUpper A.transpose b.transpose).map Matrix.transpose

/-- `DecompositionLU::Solve` for `PRECEDE_VECTOR` — Decompositions/DecomposeLU.hpp:46-54. -/
def luSolve [Field K] [DecidableEq K] (L U : Matrix (Fin n) (Fin n) K) (b : Matrix (Fin n) (Fin m) K) : Option (Matrix (Fin n) (Fin m) K) :=
  (solveLower L b).bind fun Ux => solveUpper U Ux

/-- `DecompositionLU::Solve` for `FOLLOW_VECTOR` — Decompositions/DecomposeLU.hpp:55-60. -/
def luSolveFollow [Field K] [DecidableEq K] (L U : Matrix (Fin n) (Fin n) K) (b : Matrix (Fin m) (Fin n) K) :
    Option (Matrix (Fin m) (Fin n) K) :=
  (solveUpperFollow U b).bind fun xL => solveLowerFollow L xL

/-- `L`, `U` of `DecompositionLU` — Decompositions/DecomposeLU.hpp:14-37. -/
structure LU (K : Type u) (n : ℕ) where
  L : Matrix (Fin n) (Fin n) K
  U : Matrix (Fin n) (Fin n) K

/-- Body of the inner loop of `DecomposeLU` — Decompositions/DecomposeLU.hpp:217-223. -/
def luElim [Field K] (col row : Fin n) (pivotRow : Fin n → K) (s : LU K n) : LU K n :=
  let target := s.U row col
  let scale := target / pivotRow col
  let U := s.U.updateRow row (fun j => s.U row j - pivotRow j * scale)
  ⟨Matrix.of fun i j => if i = row ∧ j = col then scale else s.L i j, Matrix.of fun i j => if i = row ∧ j = col then 0 else U i j⟩

/-- `DecomposeLU(m)` for `Dim = n + 1` — Decompositions/DecomposeLU.hpp:207-227. -/
def decomposeLU [Field K] [DecidableEq K] (A : Matrix (Fin (n + 1)) (Fin (n + 1)) K) : Option (LU K (n + 1)) :=
  forUp n 0 (fun col (s : Option _) => s.bind fun s =>
    let pivotRow := s.U col.castSucc
    if pivotRow col.castSucc = 0 then none
    else some (forUp (n + 1) (col.val + 1) (fun row => luElim col.castSucc row pivotRow) s)) (some ⟨1, A⟩)

/-- `std::max_element(abs.begin() + lo, abs.end())` — the first largest element. Used at Decompositions/DecomposeLU.hpp:244. -/
def maxElementIdx {R : Type u} [LT R] [DecidableLT R] (abs : Fin n → R) (lo : Fin n) : Fin n :=
  forUp n (lo.val + 1) (fun i best => if abs best < abs i then i else best) lo

/-- `L`, `U`, `P` of `DecompositionLUP` — Decompositions/DecomposeLU.hpp:80-117. -/
structure LUP (K : Type u) (n : ℕ) where
  L : Matrix (Fin n) (Fin n) K
  U : Matrix (Fin n) (Fin n) K
  P : Fin n → Fin n

open Classical in
/-- Body of the outer loop of `DecomposeLUP` — Decompositions/DecomposeLU.hpp:242-267. -/
noncomputable def lupStep {𝕜 : Type u} [RCLike 𝕜] (col : Fin n) (s : LUP 𝕜 n) : LUP 𝕜 n :=
  let piv := maxElementIdx (fun i => ‖s.U i col‖) col
  let pivotRow := s.U piv
  if pivotRow col ≠ 0 then
    -- Swap pivot row and the current row.
    let U := s.U.updateRow piv (s.U col)
    let U := U.updateRow col pivotRow
    let P : Fin n → Fin n := fun i => if i = piv then s.P col else if i = col then s.P piv else s.P i
    let L := forUp col.val 0 (fun i (L : Matrix (Fin n) (Fin n) 𝕜) => Matrix.of fun r c =>
      if c.val = i.val then (if r = piv then L col c else if r = col then L piv c else L r c) else L r c) s.L
    -- Zero out column as usual business.
    let lu := forUp n (col.val + 1) (fun row => luElim col row pivotRow) (⟨L, U⟩ : LU 𝕜 n)
    ⟨lu.L, lu.U, P⟩
  else s

/-- `DecomposeLUP(m)` for `Dim = n + 1` — Decompositions/DecomposeLU.hpp:231-270. -/
noncomputable def decomposeLUP {𝕜 : Type u} [RCLike 𝕜] (A : Matrix (Fin (n + 1)) (Fin (n + 1)) 𝕜) : LUP 𝕜 (n + 1) :=
  forUp n 0 (fun col => lupStep col.castSucc) ⟨1, A, id⟩

/-- `ExpandPermutation(P)` — Decompositions/DecomposeLU.hpp:161-167: the loop writing ones into the zero matrix. -/
def expandPermutation [Zero K] [One K] (P : Fin n → Fin n) : Matrix (Fin n) (Fin n) K :=
  forUp n 0 (fun i M => Matrix.of fun r c => if r = i ∧ c = P i then 1 else M r c) 0

/-- `Permute(b)` for `PRECEDE_VECTOR` — Decompositions/DecomposeLU.hpp:188-196. `b0` is the uninitialised result. -/
def permuteRows (P : Fin n → Fin n) (b0 b : Matrix (Fin n) (Fin m) K) : Matrix (Fin n) (Fin m) K :=
  forUp n 0 (fun i r => r.updateRow i (b (P i))) b0

/-- `Permute(b)` for `FOLLOW_VECTOR` — Decompositions/DecomposeLU.hpp:197-203. -/
def permuteCols (P : Fin n → Fin n) (b0 b : Matrix (Fin m) (Fin n) K) : Matrix (Fin m) (Fin n) K :=
  forUp n 0 (fun i r => r.updateCol i (fun j => b j (P i))) b0

/-- `InversePermute(b)` for `PRECEDE_VECTOR` — Decompositions/DecomposeLU.hpp:170-178. -/
def inversePermuteRows (P : Fin n → Fin n) (b0 b : Matrix (Fin n) (Fin m) K) : Matrix (Fin n) (Fin m) K :=
  forUp n 0 (fun i r => r.updateRow (P i) (b i)) b0

/-- `InversePermute(b)` for `FOLLOW_VECTOR` — Decompositions/DecomposeLU.hpp:179-185. -/
def inversePermuteCols (P : Fin n → Fin n) (b0 b : Matrix (Fin m) (Fin n) K) : Matrix (Fin m) (Fin n) K :=
  forUp n 0 (fun i r => r.updateCol (P i) (fun j => b j i)) b0

/-- `DecompositionLUP::Solve` for `PRECEDE_VECTOR` — Decompositions/DecomposeLU.hpp:125-130. -/
def lupSolve [Field K] [DecidableEq K] (d : LUP K n) (b0 b : Matrix (Fin n) (Fin m) K) : Option (Matrix (Fin n) (Fin m) K) :=
  luSolve d.L d.U (permuteRows d.P b0 b)

/-- `DecompositionLUP::Solve` for `FOLLOW_VECTOR` — Decompositions/DecomposeLU.hpp:131-134. -/
def lupSolveFollow [Field K] [DecidableEq K] (d : LUP K n) (b0 b : Matrix (Fin m) (Fin n) K) : Option (Matrix (Fin m) (Fin n) K) :=
  (luSolveFollow d.L d.U b).map (inversePermuteCols d.P b0)

/-- `Solve(Vector)` wraps the vector as a one-column matrix — Decompositions/DecomposeLU.hpp:64-72, 137-145 (`PRECEDE_VECTOR`). -/
def solveVec (solve : Matrix (Fin n) (Fin 1) K → Option (Matrix (Fin n) (Fin 1) K)) (b : Fin n → K) : Option (Fin n → K) :=
  (solve (Matrix.of fun i _ => b i)).map fun x i => x i 0

/-- `Solve(Vector)` for `FOLLOW_VECTOR`: a one-row matrix. (Decompositions/DecomposeLU.hpp:64-72, 137-145.) -/
def solveVecFollow (solve : Matrix (Fin 1) (Fin n) K → Option (Matrix (Fin 1) (Fin n) K)) (b : Fin n → K) : Option (Fin n → K) :=
  (solve (Matrix.of fun _ i => b i)).map fun x i => x 0 i

open Classical in
/-- `Inverse(m)` for dimensions 1 and 5 and above — Matrix/Math.hpp:444-450, DecomposeLU.hpp:148-151, for `PRECEDE_VECTOR`. -/
noncomputable def inverseLUP {𝕜 : Type u} [RCLike 𝕜] (b0 A : Matrix (Fin (n + 1)) (Fin (n + 1)) 𝕜) : Option (Matrix (Fin (n + 1)) (Fin (n + 1)) 𝕜) :=
  lupSolve (decomposeLUP A) b0 1

open Classical in
/-- `Inverse(m)` for `FOLLOW_VECTOR`. (Matrix/Math.hpp:444-450, DecomposeLU.hpp:148-151.) -/
noncomputable def inverseLUPFollow {𝕜 : Type u} [RCLike 𝕜] (b0 A : Matrix (Fin (n + 1)) (Fin (n + 1)) 𝕜) :
    Option (Matrix (Fin (n + 1)) (Fin (n + 1)) 𝕜) :=
  lupSolveFollow (decomposeLUP A) b0 1

end Mathter
