import Verif.Model.RoundedComplex
import Verif.Model.RoundedLinear

/-!
# Rounded evaluation of triangular solvers and LU decompositions of complex matrices

The floating-point operations of `include/Mathter/Matrix/Algorithm.hpp` and `include/Mathter/Decompositions/DecomposeLU.hpp` for complex element types, at element
level: `dv` is the division of two complex numbers, `op a b d` is `a - b * d`, `ab` the modulus. There is no overflow or underflow.
-/

namespace Mathter.Fl
variable {n m : ℕ}

/-- `a - b * d` of complex numbers: the product (`ps`, `pd` may fuse inside it), then the difference of both parts. (used in Matrix/Algorithm.hpp:29-35, 57-63 and
Decompositions/DecomposeLU.hpp:220, 262.) -/
def mulSubC (fl : ℝ → ℝ) (ps pd : ℝ → ℝ → ℝ → ℝ → ℝ) (a b d : ℂ) : ℂ := flC fl (a - prodC ps pd b d)

/-- The textbook quotient `a * conj(b) / (b.re*b.re + b.im*b.im)`, which the division of complex batches computes. (used in Matrix/Algorithm.hpp:24-27, 52-55 and
Decompositions/DecomposeLU.hpp:219, 261.) -/
noncomputable def divC (fl : ℝ → ℝ) (ps pd : ℝ → ℝ → ℝ → ℝ → ℝ) (a b : ℂ) : ℂ :=
  let s := ps b.re b.re b.im b.im
  ⟨fl (ps a.re b.re a.im b.im / s), fl (pd a.im b.re a.re b.im / s)⟩

/-- The textbook modulus `sqrt(z.re*z.re + z.im*z.im)`. (used in Decompositions/DecomposeLU.hpp:243, Vector/Math.hpp:107-111.) -/
noncomputable def absC (fl : ℝ → ℝ) (ps : ℝ → ℝ → ℝ → ℝ → ℝ) (z : ℂ) : ℝ := fl (Real.sqrt (ps z.re z.re z.im z.im))

/-! ## Triangular solvers -/

/-- Body of the inner loops of the triangular solvers — Matrix/Algorithm.hpp:29-35, 57-63. -/
def elimTargetC (op : ℂ → ℂ → ℂ → ℂ) (row target : Fin n) (rowANorm : Fin n → ℂ) (rowBNorm : Fin m → ℂ)
    (s : Matrix (Fin n) (Fin n) ℂ × Matrix (Fin n) (Fin m) ℂ) : Matrix (Fin n) (Fin n) ℂ × Matrix (Fin n) (Fin m) ℂ :=
  let targetA := s.1 target
  let targetB := s.2 target
  let multiplier := targetA row
  (s.1.updateRow target (fun j => op (targetA j) multiplier (rowANorm j)), s.2.updateRow target (fun j => op (targetB j) multiplier (rowBNorm j)))

open Classical in
/-- Body of the outer loop of `SolveUpperTriangular` — Matrix/Algorithm.hpp:21-36. `none`: division by zero. -/
noncomputable def solveUpperStepC (dv : ℂ → ℂ → ℂ) (op : ℂ → ℂ → ℂ → ℂ) (row : Fin n) (s : Matrix (Fin n) (Fin n) ℂ × Matrix (Fin n) (Fin m) ℂ) :
    Option (Matrix (Fin n) (Fin n) ℂ × Matrix (Fin n) (Fin m) ℂ) :=
  let leading := s.1 row row
  if leading = 0 then none else
    let rowANorm : Fin n → ℂ := fun j => dv (s.1 row j) leading
    let rowBNorm : Fin m → ℂ := fun j => dv (s.2 row j) leading
    some (forDown row.val (fun t => elimTargetC op row ⟨t.val, by omega⟩ rowANorm rowBNorm) (s.1.updateRow row rowANorm, s.2.updateRow row rowBNorm))

/-- `SolveUpperTriangular(A, b)` for `PRECEDE_VECTOR` — Matrix/Algorithm.hpp:14-40. -/
noncomputable def solveUpperC (dv : ℂ → ℂ → ℂ) (op : ℂ → ℂ → ℂ → ℂ) (A : Matrix (Fin n) (Fin n) ℂ) (b : Matrix (Fin n) (Fin m) ℂ) :
    Option (Matrix (Fin n) (Fin m) ℂ) :=
  (forDown n (fun row (s : Option _) => s.bind (solveUpperStepC dv op row)) (some (A, b))).map Prod.snd

open Classical in
/-- Body of the outer loop of `SolveLowerTriangular` — Matrix/Algorithm.hpp:49-64. -/
noncomputable def solveLowerStepC (dv : ℂ → ℂ → ℂ) (op : ℂ → ℂ → ℂ → ℂ) (row : Fin n) (s : Matrix (Fin n) (Fin n) ℂ × Matrix (Fin n) (Fin m) ℂ) :
    Option (Matrix (Fin n) (Fin n) ℂ × Matrix (Fin n) (Fin m) ℂ) :=
  let leading := s.1 row row
  if leading = 0 then none else
    let rowANorm : Fin n → ℂ := fun j => dv (s.1 row j) leading
    let rowBNorm : Fin m → ℂ := fun j => dv (s.2 row j) leading
    some (forUp n (row.val + 1) (fun t => elimTargetC op row t rowANorm rowBNorm) (s.1.updateRow row rowANorm, s.2.updateRow row rowBNorm))

/-- `SolveLowerTriangular(A, b)` for `PRECEDE_VECTOR` — Matrix/Algorithm.hpp:42-67. -/
noncomputable def solveLowerC (dv : ℂ → ℂ → ℂ) (op : ℂ → ℂ → ℂ → ℂ) (A : Matrix (Fin n) (Fin n) ℂ) (b : Matrix (Fin n) (Fin m) ℂ) :
    Option (Matrix (Fin n) (Fin m) ℂ) :=
  (forUp n 0 (fun row (s : Option _) => s.bind (solveLowerStepC dv op row)) (some (A, b))).map Prod.snd

/-- `SolveUpperTriangular(A, b)` for `FOLLOW_VECTOR` — Matrix/Algorithm.hpp:70-75. -/
noncomputable def solveUpperFollowC (dv : ℂ → ℂ → ℂ) (op : ℂ → ℂ → ℂ → ℂ) (A : Matrix (Fin n) (Fin n) ℂ) (b : Matrix (Fin m) (Fin n) ℂ) :
    Option (Matrix (Fin m) (Fin n) ℂ) :=
  (solveLowerC dv op A.transpose b.transpose).map Matrix.transpose

/-- `SolveLowerTriangular(A, b)` for `FOLLOW_VECTOR` — Matrix/Algorithm.hpp:78-83. -/
noncomputable def solveLowerFollowC (dv : ℂ → ℂ → ℂ) (op : ℂ → ℂ → ℂ → ℂ) (A : Matrix (Fin n) (Fin n) ℂ) (b : Matrix (Fin m) (Fin n) ℂ) :
    Option (Matrix (Fin m) (Fin n) ℂ) :=
  (solveUpperC dv op A.transpose b.transpose).map Matrix.transpose

/-! ## LU -/

/-- Body of the inner loop of `DecomposeLU` and `DecomposeLUP` — Decompositions/DecomposeLU.hpp:217-223, 258-264. -/
noncomputable def luElimC (dv : ℂ → ℂ → ℂ) (op : ℂ → ℂ → ℂ → ℂ) (col row : Fin n) (pivotRow : Fin n → ℂ) (s : LU ℂ n) : LU ℂ n :=
  let target := s.U row col
  let scale := dv target (pivotRow col)
  let U := s.U.updateRow row (fun j => op (s.U row j) (pivotRow j) scale)
  ⟨Matrix.of fun i j => if i = row ∧ j = col then scale else s.L i j, Matrix.of fun i j => if i = row ∧ j = col then 0 else U i j⟩

open Classical in
/-- `DecomposeLU(m)` for `Dim = n + 1` — Decompositions/DecomposeLU.hpp:207-227. -/
noncomputable def decomposeLUC (dv : ℂ → ℂ → ℂ) (op : ℂ → ℂ → ℂ → ℂ) (A : Matrix (Fin (n + 1)) (Fin (n + 1)) ℂ) : Option (LU ℂ (n + 1)) :=
  forUp n 0 (fun col (s : Option _) => s.bind fun s =>
    let pivotRow := s.U col.castSucc
    if pivotRow col.castSucc = 0 then none
    else some (forUp (n + 1) (col.val + 1) (fun row => luElimC dv op col.castSucc row pivotRow) s)) (some ⟨1, A⟩)

open Classical in
/-- Body of the outer loop of `DecomposeLUP` — Decompositions/DecomposeLU.hpp:242-267. -/
noncomputable def lupStepC (dv : ℂ → ℂ → ℂ) (ab : ℂ → ℝ) (op : ℂ → ℂ → ℂ → ℂ) (col : Fin n) (s : LUP ℂ n) : LUP ℂ n :=
  let piv := maxElementIdx (fun i => ab (s.U i col)) col
  let pivotRow := s.U piv
  if pivotRow col ≠ 0 then
    -- Swap pivot row and the current row.
    let U := s.U.updateRow piv (s.U col)
    let U := U.updateRow col pivotRow
    let P : Fin n → Fin n := fun i => if i = piv then s.P col else if i = col then s.P piv else s.P i
    let L := forUp col.val 0 (fun i (L : Matrix (Fin n) (Fin n) ℂ) => Matrix.of fun r c =>
      if c.val = i.val then (if r = piv then L col c else if r = col then L piv c else L r c) else L r c) s.L
    -- Zero out column as usual business.
    let lu := forUp n (col.val + 1) (fun row => luElimC dv op col row pivotRow) (⟨L, U⟩ : LU ℂ n)
    ⟨lu.L, lu.U, P⟩
  else s

/-- `DecomposeLUP(m)` for `Dim = n + 1` — Decompositions/DecomposeLU.hpp:231-270. -/
noncomputable def decomposeLUPC (dv : ℂ → ℂ → ℂ) (ab : ℂ → ℝ) (op : ℂ → ℂ → ℂ → ℂ) (A : Matrix (Fin (n + 1)) (Fin (n + 1)) ℂ) : LUP ℂ (n + 1) :=
  forUp n 0 (fun col => lupStepC dv ab op col.castSucc) ⟨1, A, id⟩

/-- `DecompositionLU::Solve` for `PRECEDE_VECTOR` — Decompositions/DecomposeLU.hpp:46-54. -/
noncomputable def luSolveC (dv : ℂ → ℂ → ℂ) (op : ℂ → ℂ → ℂ → ℂ) (L U : Matrix (Fin n) (Fin n) ℂ) (b : Matrix (Fin n) (Fin m) ℂ) :
    Option (Matrix (Fin n) (Fin m) ℂ) :=
  (solveLowerC dv op L b).bind fun Ux => solveUpperC dv op U Ux

/-- `DecompositionLU::Solve` for `FOLLOW_VECTOR` — Decompositions/DecomposeLU.hpp:55-60. -/
noncomputable def luSolveFollowC (dv : ℂ → ℂ → ℂ) (op : ℂ → ℂ → ℂ → ℂ) (L U : Matrix (Fin n) (Fin n) ℂ) (b : Matrix (Fin m) (Fin n) ℂ) :
    Option (Matrix (Fin m) (Fin n) ℂ) :=
  (solveUpperFollowC dv op U b).bind fun xL => solveLowerFollowC dv op L xL

/-- `DecompositionLUP::Solve` for `PRECEDE_VECTOR` — Decompositions/DecomposeLU.hpp:125-130. -/
noncomputable def lupSolveC (dv : ℂ → ℂ → ℂ) (op : ℂ → ℂ → ℂ → ℂ) (d : LUP ℂ n) (b0 b : Matrix (Fin n) (Fin m) ℂ) : Option (Matrix (Fin n) (Fin m) ℂ) :=
  luSolveC dv op d.L d.U (permuteRows d.P b0 b)

/-- `DecompositionLUP::Solve` for `FOLLOW_VECTOR` — Decompositions/DecomposeLU.hpp:131-134. -/
noncomputable def lupSolveFollowC (dv : ℂ → ℂ → ℂ) (op : ℂ → ℂ → ℂ → ℂ) (d : LUP ℂ n) (b0 b : Matrix (Fin m) (Fin n) ℂ) :
    Option (Matrix (Fin m) (Fin n) ℂ) :=
  (luSolveFollowC dv op d.L d.U b).map (inversePermuteCols d.P b0)

/-- `Inverse(m)` for dimensions 1 and 5 and above — Matrix/Math.hpp:444-450, DecomposeLU.hpp:148-151, for `PRECEDE_VECTOR`. -/
noncomputable def inverseLUPC (dv : ℂ → ℂ → ℂ) (ab : ℂ → ℝ) (op : ℂ → ℂ → ℂ → ℂ) (b0 A : Matrix (Fin (n + 1)) (Fin (n + 1)) ℂ) :
    Option (Matrix (Fin (n + 1)) (Fin (n + 1)) ℂ) :=
  lupSolveC dv op (decomposeLUPC dv ab op A) b0 1

end Mathter.Fl
