import Mathlib.LinearAlgebra.Matrix.Determinant.Basic
import Mathlib.LinearAlgebra.Matrix.NonsingularInverse
import Mathlib.Tactic.LinearCombination
import Mathlib.Tactic.FieldSimp
import Mathlib.Tactic.NormNum
import Mathlib.Algebra.BigOperators.Field
import Verif.Model.Determinant

/-!
# Properties C28, C30: determinants and inverses of dimension 2, 3, 4
-/

namespace Mathter.Props
open Mathter
universe u
variable {K : Type u}

/-- C28: 2×2. -/
theorem C28_det2 [CommRing K] (m : Matrix (Fin 2) (Fin 2) K) : det2 m = m.det := by
  rw [Matrix.det_fin_two]; unfold det2; ring

private theorem det3_aux [CommRing K] (m : Matrix (Fin 3) (Fin 3) K) : det3Stripes m = m.det := by
  rw [Matrix.det_fin_three]
  simp [det3Stripes, vsum, sw, Fin.sum_univ_three]
  ring

private theorem det_fin_four [CommRing K] (m : Matrix (Fin 4) (Fin 4) K) : m.det =
    m 0 0 * (m 1 1 * (m 2 2 * m 3 3 - m 2 3 * m 3 2) - m 1 2 * (m 2 1 * m 3 3 - m 2 3 * m 3 1) + m 1 3 * (m 2 1 * m 3 2 - m 2 2 * m 3 1))
    - m 0 1 * (m 1 0 * (m 2 2 * m 3 3 - m 2 3 * m 3 2) - m 1 2 * (m 2 0 * m 3 3 - m 2 3 * m 3 0) + m 1 3 * (m 2 0 * m 3 2 - m 2 2 * m 3 0))
    + m 0 2 * (m 1 0 * (m 2 1 * m 3 3 - m 2 3 * m 3 1) - m 1 1 * (m 2 0 * m 3 3 - m 2 3 * m 3 0) + m 1 3 * (m 2 0 * m 3 1 - m 2 1 * m 3 0))
    - m 0 3 * (m 1 0 * (m 2 1 * m 3 2 - m 2 2 * m 3 1) - m 1 1 * (m 2 0 * m 3 2 - m 2 2 * m 3 0) + m 1 2 * (m 2 0 * m 3 1 - m 2 1 * m 3 0)) := by
  rw [Matrix.det_succ_row_zero]
  simp only [Fin.sum_univ_four, Matrix.det_fin_three, Matrix.submatrix_apply]
  simp [Fin.succAbove, Fin.lt_def]
  ring

private theorem det4_aux [CommRing K] (m : Matrix (Fin 4) (Fin 4) K) : det4Stripes m = m.det := by
  rw [det_fin_four]
  simp [det4Stripes, vsum, sw, Fin.sum_univ_three, Fin.sum_univ_four]
  ring

private theorem det_stripesOf [CommRing K] {n : ℕ} (L : Layout) (m : Matrix (Fin n) (Fin n) K) : (stripesOf L m).det = m.det := by
  cases L
  · rfl
  · exact Matrix.det_transpose m

/-- C28: 3×3, either layout. -/
theorem C28_det3 [CommRing K] (L : Layout) (m : Matrix (Fin 3) (Fin 3) K) : det3Stripes (stripesOf L m) = m.det := by
  rw [det3_aux, det_stripesOf]

/-- C28: 4×4, either layout. -/
theorem C28_det4 [CommRing K] (L : Layout) (m : Matrix (Fin 4) (Fin 4) K) : det4Stripes (stripesOf L m) = m.det := by
  rw [det4_aux, det_stripesOf]

/-- C28: `Determinant` dispatched on the dimension. -/
theorem C28_determinant [CommRing K] [DecidableEq K] (div : K → K → K) (L : Layout) :
    (∀ m : Matrix (Fin 2) (Fin 2) K, determinant div L m = m.det) ∧ (∀ m : Matrix (Fin 3) (Fin 3) K, determinant div L m = m.det) ∧
    (∀ m : Matrix (Fin 4) (Fin 4) K, determinant div L m = m.det) :=
  ⟨C28_det2, C28_det3 L, C28_det4 L⟩

/-- The statement is about a non-trivial value. -/
example : det4Stripes (stripesOf .col (!![2, 0, 1, 3; 1, 1, 0, 2; 0, 4, 1, 1; 1, 0, 2, 5] : Matrix (Fin 4) (Fin 4) ℤ)) = 24 := by decide

/-! ## C30 -/

private theorem inv_of_mul [Field K] {n : ℕ} (L : Layout) (m r : Matrix (Fin n) (Fin n) K)
    (h : r * stripesOf L m = 1) : stripesOf L r * m = 1 ∧ m * stripesOf L r = 1 := by
  cases L
  · exact ⟨h, mul_eq_one_comm.1 h⟩
  · have h1 : m * r.transpose = 1 := by
      have := congrArg Matrix.transpose h
      simpa [stripesOf, Matrix.transpose_mul] using this
    exact ⟨mul_eq_one_comm.1 h1, h1⟩

private theorem inv_core [Field K] {n : ℕ} (s cof : Matrix (Fin n) (Fin n) K) (d : K) (hd : d ≠ 0)
    (h : ∀ i j, ∑ q, cof i q * s q j = if i = j then d else 0) : Matrix.of (fun i j => cof i j / d) * s = 1 := by
  ext i j
  rw [Matrix.mul_apply, Matrix.one_apply]
  simp only [Matrix.of_apply, div_mul_eq_mul_div]
  rw [← Finset.sum_div, h i j]
  split
  · exact div_self hd
  · simp

/-- C30: 2×2 inverse, either layout: defined exactly for nonzero determinant, and a two-sided inverse. -/
theorem C30_inv2 [Field K] [DecidableEq K] (L : Layout) (m : Matrix (Fin 2) (Fin 2) K) :
    ((inv2 L m).isSome = true ↔ m.det ≠ 0) ∧ ∀ r, inv2 L m = some r → r * m = 1 ∧ m * r = 1 := by
  have hdet : stripesOf L m 0 0 * stripesOf L m 1 1 - stripesOf L m 0 1 * stripesOf L m 1 0 = m.det := by
    rw [← det_stripesOf L m, Matrix.det_fin_two]
  unfold inv2 inv2Stripes
  dsimp only
  rw [hdet]
  by_cases h : m.det = 0
  · simp [h]
  · rw [if_neg h]
    refine ⟨by simp [h], ?_⟩
    intro r hr
    simp only [Option.map_some, Option.some.injEq] at hr
    rw [← hr]
    refine inv_of_mul L m _ (inv_core _ _ _ h ?_)
    rw [← hdet]
    intro i j
    fin_cases i <;> fin_cases j <;> simp [cof2Stripes, Fin.sum_univ_two] <;> ring

/-- C30: 3×3. -/
theorem C30_inv3 [Field K] [DecidableEq K] (L : Layout) (m : Matrix (Fin 3) (Fin 3) K) :
    ((inv3 L m).isSome = true ↔ m.det ≠ 0) ∧ ∀ r, inv3 L m = some r → r * m = 1 ∧ m * r = 1 := by
  unfold inv3 inv3Stripes
  dsimp only
  rw [C28_det3 L m]
  by_cases h : m.det = 0
  · simp [h]
  · rw [if_neg h]
    refine ⟨by simp [h], ?_⟩
    intro r hr
    simp only [Option.map_some, Option.some.injEq] at hr
    rw [← hr]
    refine inv_of_mul L m _ (inv_core _ _ _ h ?_)
    rw [← det_stripesOf L m, Matrix.det_fin_three]
    intro i j
    fin_cases i <;> fin_cases j <;> simp [cof3Stripes, sw, Fin.sum_univ_three] <;> ring

set_option maxHeartbeats 1000000 in
/-- C30: 4×4. -/
theorem C30_inv4 [Field K] [DecidableEq K] (L : Layout) (m : Matrix (Fin 4) (Fin 4) K) :
    ((inv4 L m).isSome = true ↔ m.det ≠ 0) ∧ ∀ r, inv4 L m = some r → r * m = 1 ∧ m * r = 1 := by
  unfold inv4 inv4Stripes
  dsimp only
  rw [C28_det4 L m]
  by_cases h : m.det = 0
  · simp [h]
  · rw [if_neg h]
    refine ⟨by simp [h], ?_⟩
    intro r hr
    simp only [Option.map_some, Option.some.injEq] at hr
    rw [← hr]
    refine inv_of_mul L m _ (inv_core _ _ _ h ?_)
    rw [← det_stripesOf L m, det_fin_four]
    intro i j
    fin_cases i <;> fin_cases j <;> simp [cof4Stripes, sw, Fin.sum_univ_four] <;> ring

/-- The inverse is defined on a non-trivial matrix. -/
example : (inv3 .col (!![2, 0, 1; 1, 1, 0; 0, 4, 1] : Matrix (Fin 3) (Fin 3) ℚ)).isSome = true :=
  (C30_inv3 _ _).1.2 (by simp [Matrix.det_fin_three]; norm_num)

end Mathter.Props
