import Mathlib.LinearAlgebra.Matrix.Permanent
import Mathlib.GroupTheory.Perm.Fin
import Mathlib.Data.Real.Basic
import Mathlib.Tactic.Ring
import Mathlib.Algebra.BigOperators.Fin

/-! # Permanents of small matrices

The permanent of the absolute values is the natural measure for rounding errors of determinants: it bounds the sum of the absolute values of the terms.
-/

namespace Mathter
variable {n : ℕ}
theorem permanent_succ (A : Matrix (Fin (n + 1)) (Fin (n + 1)) ℝ) :
    A.permanent = ∑ p, A p 0 * (A.submatrix (fun i => Equiv.swap 0 p i.succ) Fin.succ).permanent := by
  unfold Matrix.permanent
  rw [Finset.univ_perm_fin_succ, Finset.sum_map, Fintype.sum_prod_type]
  refine Finset.sum_congr rfl fun p _ => ?_
  rw [Finset.mul_sum]
  refine Finset.sum_congr rfl fun σ _ => ?_
  rw [Fin.prod_univ_succ]
  simp

theorem permanent_two (A : Matrix (Fin 2) (Fin 2) ℝ) : A.permanent = A 0 0 * A 1 1 + A 1 0 * A 0 1 := by
  rw [permanent_succ, Fin.sum_univ_two]
  simp [Matrix.permanent_unique]

theorem permanent_three (A : Matrix (Fin 3) (Fin 3) ℝ) : A.permanent =
    A 0 0 * (A 1 1 * A 2 2 + A 2 1 * A 1 2) + A 1 0 * (A 0 1 * A 2 2 + A 2 1 * A 0 2) + A 2 0 * (A 1 1 * A 0 2 + A 0 1 * A 1 2) := by
  rw [permanent_succ, Fin.sum_univ_three]
  simp only [permanent_two]
  simp [Equiv.swap_apply_def]

theorem permanent_four (A : Matrix (Fin 4) (Fin 4) ℝ) : A.permanent =
    A 0 0 * (A 1 1 * (A 2 2 * A 3 3 + A 2 3 * A 3 2) + A 1 2 * (A 2 1 * A 3 3 + A 2 3 * A 3 1) + A 1 3 * (A 2 1 * A 3 2 + A 2 2 * A 3 1))
    + A 0 1 * (A 1 0 * (A 2 2 * A 3 3 + A 2 3 * A 3 2) + A 1 2 * (A 2 0 * A 3 3 + A 2 3 * A 3 0) + A 1 3 * (A 2 0 * A 3 2 + A 2 2 * A 3 0))
    + A 0 2 * (A 1 0 * (A 2 1 * A 3 3 + A 2 3 * A 3 1) + A 1 1 * (A 2 0 * A 3 3 + A 2 3 * A 3 0) + A 1 3 * (A 2 0 * A 3 1 + A 2 1 * A 3 0))
    + A 0 3 * (A 1 0 * (A 2 1 * A 3 2 + A 2 2 * A 3 1) + A 1 1 * (A 2 0 * A 3 2 + A 2 2 * A 3 0) + A 1 2 * (A 2 0 * A 3 1 + A 2 1 * A 3 0)) := by
  rw [permanent_succ, Fin.sum_univ_four]
  simp only [permanent_three]
  simp [Equiv.swap_apply_def, show (3 : Fin 4) = (2 : Fin 3).succ from rfl]
  ring

/-- Sum of the absolute values of the terms of the determinant. -/
noncomputable def absPerm (A : Matrix (Fin n) (Fin n) ℝ) : ℝ := (A.map fun x => |x|).permanent

theorem absPerm_transpose (A : Matrix (Fin n) (Fin n) ℝ) : absPerm A.transpose = absPerm A := by
  unfold absPerm
  rw [← Matrix.permanent_transpose]; rfl

end Mathter
