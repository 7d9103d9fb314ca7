import Mathlib.LinearAlgebra.Matrix.Notation
import Mathlib.Algebra.BigOperators.Fin
import Verif.Model.Matrix

/-!
# Element level

Conventions for algorithms modelled on elements rather than on storage: a vector is `Fin n → K`, a matrix is `Fin r → Fin c → K`
(Mathlib's `Matrix`). The storage-level theorems (C01–C12, C20–C27, C32) state that every vector/matrix primitive used by these
algorithms acts on the visible elements exactly like the operations below, whatever the packing, layout and configuration.
-/

namespace Mathter
universe u
variable {K : Type u}

/-- Reading a swizzle `v.<letters>` into a vector (C05). Swizzle.hpp:118-140. -/
def sw {n k : ℕ} (v : Fin n → K) (idx : Fin k → Fin n) : Fin k → K := fun t => v (idx t)

/-- `Sum(v)` (C03). Vector/Math.hpp:142-153. -/
def vsum [AddCommMonoid K] {n : ℕ} (v : Fin n → K) : K := ∑ i, v i

/-- Stripes of a square matrix: its rows for `ROW_MAJOR`, its columns for `COLUMN_MAJOR`. Matrix/Matrix.hpp:24-31, 257-261. -/
def stripesOf {n : ℕ} (L : Layout) (m : Matrix (Fin n) (Fin n) K) : Matrix (Fin n) (Fin n) K :=
  match L with
  | .row => m
  | .col => m.transpose

end Mathter
