import Verif.Spec.Norm
import Mathlib.Analysis.Complex.Norm

/-!
# Euclidean length of complex tuples

Independent of the code: the length used to measure errors of complex vectors and of columns of complex matrices.
-/

namespace Mathter

/-- Euclidean length. -/
noncomputable def normC {n : ℕ} (x : Fin n → ℂ) : ℝ := norm2 fun i => ‖x i‖

variable {n m : ℕ}

theorem normC_nonneg (x : Fin n → ℂ) : 0 ≤ normC x := norm2_nonneg _

theorem normC_add_le (x y : Fin n → ℂ) : normC (fun i => x i + y i) ≤ normC x + normC y :=
  (norm2_le_of_abs fun i => by rw [abs_norm]; exact norm_add_le _ _).trans (norm2_add_le _ _)

theorem normC_sub_le (x y : Fin n → ℂ) : |normC x - normC y| ≤ normC fun i => x i - y i :=
  (norm2_sub_le _ _).trans (norm2_le_of_abs fun _ => abs_norm_sub_norm_le _ _)

theorem normC_mono {x y : Fin n → ℂ} (h : ∀ i, ‖x i‖ ≤ ‖y i‖) : normC x ≤ normC y := norm2_mono fun i => by simpa using h i

theorem normC_le_norm2 {x : Fin n → ℂ} {y : Fin n → ℝ} (h : ∀ i, ‖x i‖ ≤ y i) : normC x ≤ norm2 y := norm2_le_of_abs fun i => by simpa using h i

theorem normC_le_mul {x y : Fin n → ℂ} {c : ℝ} (hc : 0 ≤ c) (h : ∀ i, ‖x i‖ ≤ c * ‖y i‖) : normC x ≤ c * normC y :=
  norm2_le_mul hc fun i => by simpa using h i

theorem normC_smul (a : ℂ) (x : Fin n → ℂ) : normC (fun i => a * x i) = ‖a‖ * normC x := by
  unfold normC
  simp only [norm_mul]
  rw [norm2_smul, abs_norm]

theorem normC_neg (x : Fin n → ℂ) : normC (fun i => -x i) = normC x := by unfold normC; simp only [norm_neg]

theorem normC_star (x : Fin n → ℂ) : normC (fun i => star (x i)) = normC x := by unfold normC; simp only [norm_star]

theorem normC_zero : normC (fun _ : Fin n => (0 : ℂ)) = 0 := by unfold normC; simp only [norm_zero]; exact norm2_zero

theorem normC_eq_zero {x : Fin n → ℂ} (h : normC x = 0) (i : Fin n) : x i = 0 := norm_eq_zero.1 (norm2_eq_zero h i)

theorem normC_dot_le (x y : Fin n → ℂ) : ∑ i, ‖x i‖ * ‖y i‖ ≤ normC x * normC y := by
  have := abs_dot_le (fun i => ‖x i‖) fun i => ‖y i‖
  simpa [normC] using this

theorem normC_sq (x : Fin n → ℂ) : ((normC x ^ 2 : ℝ) : ℂ) = ∑ i, star (x i) * x i := by
  unfold normC
  rw [norm2_sq]
  push_cast
  refine Finset.sum_congr rfl fun i _ => ?_
  rw [← Complex.conj_mul']
  rfl

/-- Unitary matrices keep lengths. -/
theorem normC_mul_col {a b d : ℕ} {P : Matrix (Fin a) (Fin b) ℂ} (h : P.conjTranspose * P = 1) (X : Matrix (Fin b) (Fin d) ℂ) (j : Fin d) :
    normC (fun i => (P * X) i j) = normC (fun i => X i j) := by
  have e : ∀ {c : ℕ} (Y : Matrix (Fin c) (Fin d) ℂ), ((normC (fun i => Y i j) ^ 2 : ℝ) : ℂ) = (Y.conjTranspose * Y) j j := fun Y => by
    rw [normC_sq, Matrix.mul_apply]; rfl
  have q : normC (fun i => (P * X) i j) ^ 2 = normC (fun i => X i j) ^ 2 := by
    have : ((normC (fun i => (P * X) i j) ^ 2 : ℝ) : ℂ) = ((normC (fun i => X i j) ^ 2 : ℝ) : ℂ) := by
      rw [e, e, Matrix.conjTranspose_mul, Matrix.mul_assoc, ← Matrix.mul_assoc P.conjTranspose, h, Matrix.one_mul]
    exact_mod_cast this
  exact (sq_eq_sq₀ (normC_nonneg _) (normC_nonneg _)).1 q

end Mathter
