import Mathlib.LinearAlgebra.Matrix.Determinant.Basic

/-! # Bordered minors (specification side) -/

namespace Mathter
universe u
variable {R : Type u} [CommRing R] {n : ℕ}

/-- The rows (or columns) `0 … k - 1` followed by `r`. -/
def borderIdx (k : ℕ) (r : Fin n) (a : Fin (k + 1)) : Fin n := if h : a.val < k ∧ a.val < n then ⟨a.val, h.2⟩ else r

/-- Determinant of the rows `0 … k - 1`, `r` and the columns `0 … k - 1`, `c` of `m`. -/
def bordered (m : Matrix (Fin n) (Fin n) R) (k : ℕ) (r c : Fin n) : R := (m.submatrix (borderIdx k r) (borderIdx k c)).det

end Mathter
