import Verif.Spec.Norm

/-!
# Frobenius norm of real matrices

Independent of the code: the norm used to measure errors of whole matrices.
-/

namespace Mathter
variable {l m n : ℕ}

/-- The square root of the sum of the squares of all elements. -/
noncomputable def frob (M : Matrix (Fin m) (Fin n) ℝ) : ℝ := Real.sqrt (∑ i, ∑ j, M i j ^ 2)

theorem frob_rows (M : Matrix (Fin m) (Fin n) ℝ) : frob M = norm2 fun i => norm2 (M i) := by
  unfold frob
  rw [norm2]
  simp only [norm2_sq]

theorem frob_nonneg (M : Matrix (Fin m) (Fin n) ℝ) : 0 ≤ frob M := Real.sqrt_nonneg _

theorem frob_transpose (M : Matrix (Fin m) (Fin n) ℝ) : frob M.transpose = frob M := by
  unfold frob
  rw [Finset.sum_comm]
  rfl

theorem frob_add_le (A B : Matrix (Fin m) (Fin n) ℝ) : frob (A + B) ≤ frob A + frob B := by
  rw [frob_rows, frob_rows, frob_rows]
  refine (norm2_le_of_abs (y := fun i => norm2 (A i) + norm2 (B i)) fun i => ?_).trans (norm2_add_le _ _)
  rw [abs_of_nonneg (norm2_nonneg _)]
  exact norm2_add_le (A i) (B i)

theorem frob_rows_le {A B : Matrix (Fin m) (Fin n) ℝ} {e : ℝ} (he : 0 ≤ e) (h : ∀ i, norm2 (A i) ≤ e * norm2 (B i)) : frob A ≤ e * frob B := by
  rw [frob_rows, frob_rows]
  refine norm2_le_mul he fun i => ?_
  rw [abs_of_nonneg (norm2_nonneg _), abs_of_nonneg (norm2_nonneg _)]
  exact h i

theorem frob_cols_le {A B : Matrix (Fin m) (Fin n) ℝ} {e : ℝ} (he : 0 ≤ e) (h : ∀ j, (norm2 fun i => A i j) ≤ e * norm2 fun i => B i j) :
    frob A ≤ e * frob B := by
  rw [← frob_transpose A, ← frob_transpose B]
  exact frob_rows_le he h

theorem frob_le_mul {A B : Matrix (Fin m) (Fin n) ℝ} {e : ℝ} (he : 0 ≤ e) (h : ∀ i j, |A i j| ≤ e * |B i j|) : frob A ≤ e * frob B :=
  frob_rows_le he fun i => norm2_le_mul he (h i)

/-- A matrix whose rows are at most `B` long. -/
theorem frob_le_sqrt {A : Matrix (Fin m) (Fin n) ℝ} {B : ℝ} (hB : 0 ≤ B) (h : ∀ i, norm2 (A i) ≤ B) : frob A ≤ Real.sqrt m * B := by
  rw [frob_rows]
  refine norm2_le_sqrt hB fun i => ?_
  rw [abs_of_nonneg (norm2_nonneg _)]
  exact h i

theorem abs_le_frob (M : Matrix (Fin m) (Fin n) ℝ) (i : Fin m) (j : Fin n) : |M i j| ≤ frob M := by
  rw [frob_rows]
  refine (abs_le_norm2 (M i) j).trans ?_
  have := abs_le_norm2 (fun i => norm2 (M i)) i
  rwa [abs_of_nonneg (norm2_nonneg _)] at this

theorem frob_mul_le (A : Matrix (Fin l) (Fin m) ℝ) (B : Matrix (Fin m) (Fin n) ℝ) : frob (A * B) ≤ frob A * frob B := by
  have h : ∀ i, norm2 ((A * B) i) ≤ frob B * norm2 (A i) := by
    intro i
    rw [← frob_transpose B, frob_rows, mul_comm, ← abs_of_nonneg (norm2_nonneg (A i)), ← norm2_smul]
    refine norm2_le_of_abs fun j => ?_
    rw [Matrix.mul_apply]
    exact dot_abs_le (A i) (fun k => B k j)
  rw [mul_comm, frob_rows (A * B), frob_rows A]
  refine norm2_le_mul (frob_nonneg B) fun i => ?_
  rw [abs_of_nonneg (norm2_nonneg _), abs_of_nonneg (norm2_nonneg _)]
  exact h i

theorem frob_orth_mul {P : Matrix (Fin l) (Fin m) ℝ} (h : P.transpose * P = 1) (M : Matrix (Fin m) (Fin n) ℝ) : frob (P * M) = frob M := by
  rw [← frob_transpose (P * M), ← frob_transpose M, frob_rows, frob_rows]
  congr 1
  funext j
  exact norm2_mulVec h (fun i => M i j)

theorem frob_mul_orth {Q : Matrix (Fin m) (Fin n) ℝ} (h : Q * Q.transpose = 1) (M : Matrix (Fin l) (Fin m) ℝ) : frob (M * Q) = frob M := by
  rw [← frob_transpose (M * Q), Matrix.transpose_mul, frob_orth_mul (by rwa [Matrix.transpose_transpose]), frob_transpose]

theorem frob_smul (a : ℝ) (M : Matrix (Fin m) (Fin n) ℝ) : frob (a • M) = |a| * frob M := by
  rw [frob_rows, frob_rows, ← abs_of_nonneg (abs_nonneg a), ← norm2_smul]
  congr 1
  funext i
  exact norm2_smul a (M i)

end Mathter
