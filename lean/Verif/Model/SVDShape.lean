import Verif.Model.SVD
import Verif.Model.Matrix

/-!
# `DecomposeSVD` for matrices of every shape, and solving for vectors — Decompositions/DecomposeSVD.hpp:80-89, 529-546

The shapes of the factors depend on the shape of the matrix, so the result is one of two cases. What does not compile is an outer `none`; an inner `none` is a
division by zero or an index out of range, as in `Model/SVD.lean`.
-/

namespace Mathter
universe u
variable {𝕜 : Type u} [RCLike 𝕜] {r n m : ℕ}

/-- `DecompositionSVD<T, Rows, Columns>` with `PDim = min(Rows, Columns)` — Decompositions/DecomposeSVD.hpp:21-28. -/
inductive AnySVD (𝕜 : Type u) (r n : ℕ)
  | tall (h : n ≤ r) (d : SVD 𝕜 r n n)
  | wide (h : r < n) (d : SVD 𝕜 r r n)

/-- `DecomposeSVD(m, algorithm)` — Decompositions/DecomposeSVD.hpp:529-546. `alg` is the algorithm for matrices with at least as many rows as columns. The wide
case flips layout and order, which transposes the elements (C21), and calls `DecomposeSVD` again, with a matrix that is tall. -/
def decomposeSVD (alg : ∀ {r n : ℕ}, n + 1 ≤ r + 1 → Matrix (Fin (r + 1)) (Fin (n + 1)) 𝕜 → Option (SVD 𝕜 (r + 1) (n + 1) (n + 1)))
    (A : Matrix (Fin (r + 1)) (Fin (n + 1)) 𝕜) : Option (AnySVD 𝕜 (r + 1) (n + 1)) :=
  if h : n + 1 ≤ r + 1 then (alg h A).map (AnySVD.tall h)
  else (alg (not_le.1 h).le A.transpose).map fun d => AnySVD.wide (not_le.1 h) (svdFlip d)

/-- `d.Inverse()` — Decompositions/DecomposeSVD.hpp:92-100. -/
noncomputable def AnySVD.inverse (d : AnySVD 𝕜 r n) : Option (Matrix (Fin n) (Fin r) 𝕜) :=
  match d with
  | .tall _ d => svdInverse d
  | .wide _ d => svdInverse d

/-- `d.Solve(b)` for several right-hand sides, matrices that precede vectors — Decompositions/DecomposeSVD.hpp:59-68. -/
noncomputable def AnySVD.solvePrecede (d : AnySVD 𝕜 r n) (b : Matrix (Fin r) (Fin m) 𝕜) : Option (Matrix (Fin n) (Fin m) 𝕜) :=
  match d with
  | .tall _ d => svdSolvePrecede d b
  | .wide _ d => svdSolvePrecede d b

/-- `d.Solve(b)` for several right-hand sides, matrices that follow vectors — Decompositions/DecomposeSVD.hpp:59, 69-76. -/
noncomputable def AnySVD.solveFollow (d : AnySVD 𝕜 r n) (b : Matrix (Fin m) (Fin n) 𝕜) : Option (Matrix (Fin m) (Fin r) 𝕜) :=
  match d with
  | .tall _ d => svdSolveFollow d b
  | .wide _ d => svdSolveFollow d b

/-- `d.Solve(b)` for a vector and a matrix that precedes vectors — Decompositions/DecomposeSVD.hpp:80-84. The parameter has `max(Rows, Columns)` elements, the
matrix made of it `Rows`: if these differ, `Matrix` has no such constructor (Matrix/Matrix.hpp:76). -/
noncomputable def AnySVD.solveVecPrecede (d : AnySVD 𝕜 r n) (b : Fin (max r n) → 𝕜) : Option (Option (Fin n → 𝕜)) :=
  if h : max r n = r then some ((d.solvePrecede (Matrix.of fun i (_ : Fin 1) => b (Fin.cast h.symm i))).map fun x i => x i 0)
  else none

/-- `d.Solve(b)` for a vector and a matrix that follows vectors — Decompositions/DecomposeSVD.hpp:80-82, 85-88. -/
noncomputable def AnySVD.solveVecFollow (d : AnySVD 𝕜 r n) (b : Fin (max r n) → 𝕜) : Option (Option (Fin r → 𝕜)) :=
  if h : max r n = n then some ((d.solveFollow (Matrix.of fun (_ : Fin 1) j => b (Fin.cast h.symm j))).map fun x => x 0)
  else none

end Mathter
