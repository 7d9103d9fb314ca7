import Mathlib.Analysis.InnerProductSpace.PiL2

/-!
# Euclidean length of real tuples

Independent of the code: the length used to measure errors of vectors and of columns of matrices.
-/

namespace Mathter

/-- Euclidean length. -/
noncomputable def norm2 {n : ℕ} (x : Fin n → ℝ) : ℝ := Real.sqrt (∑ i, x i ^ 2)

variable {n m : ℕ}

theorem norm2_eq (x : Fin n → ℝ) : norm2 x = ‖(WithLp.toLp 2 x : EuclideanSpace ℝ (Fin n))‖ := by
  rw [EuclideanSpace.norm_eq]; simp [norm2]

theorem norm2_nonneg (x : Fin n → ℝ) : 0 ≤ norm2 x := Real.sqrt_nonneg _

theorem norm2_sq (x : Fin n → ℝ) : norm2 x ^ 2 = ∑ i, x i ^ 2 := Real.sq_sqrt (Finset.sum_nonneg fun _ _ => sq_nonneg _)

theorem norm2_add_le (x y : Fin n → ℝ) : norm2 (fun i => x i + y i) ≤ norm2 x + norm2 y := by
  rw [norm2_eq, norm2_eq, norm2_eq]
  exact norm_add_le (WithLp.toLp 2 x : EuclideanSpace ℝ (Fin n)) (WithLp.toLp 2 y)

theorem norm2_smul (a : ℝ) (x : Fin n → ℝ) : norm2 (fun i => a * x i) = |a| * norm2 x := by
  unfold norm2
  simp only [mul_pow]
  rw [← Finset.mul_sum, Real.sqrt_mul (sq_nonneg a), Real.sqrt_sq_eq_abs]

theorem norm2_mono {x y : Fin n → ℝ} (h : ∀ i, |x i| ≤ |y i|) : norm2 x ≤ norm2 y :=
  Real.sqrt_le_sqrt (Finset.sum_le_sum fun i _ => sq_le_sq.2 (h i))

theorem norm2_abs (x : Fin n → ℝ) : norm2 (fun i => |x i|) = norm2 x := by
  unfold norm2; simp only [sq_abs]

theorem norm2_le_of_abs {x y : Fin n → ℝ} (h : ∀ i, |x i| ≤ y i) : norm2 x ≤ norm2 y :=
  norm2_mono fun i => (h i).trans (le_abs_self _)

theorem norm2_le_mul {x y : Fin n → ℝ} {c : ℝ} (hc : 0 ≤ c) (h : ∀ i, |x i| ≤ c * |y i|) : norm2 x ≤ c * norm2 y := by
  refine (norm2_le_of_abs h).trans ?_
  rw [norm2_smul c fun i => |y i|, norm2_abs, abs_of_nonneg hc]

theorem norm2_sub_le (x y : Fin n → ℝ) : |norm2 x - norm2 y| ≤ norm2 (fun i => x i - y i) := by
  rw [norm2_eq, norm2_eq, norm2_eq]
  exact abs_norm_sub_norm_le (WithLp.toLp 2 x : EuclideanSpace ℝ (Fin n)) (WithLp.toLp 2 y)

theorem norm2_neg (x : Fin n → ℝ) : norm2 (fun i => -x i) = norm2 x := by
  unfold norm2; simp only [neg_sq]

theorem norm2_zero : norm2 (fun _ : Fin n => (0 : ℝ)) = 0 := by simp [norm2]

theorem norm2_eq_zero {x : Fin n → ℝ} (h : norm2 x = 0) (i : Fin n) : x i = 0 := by
  have h2 := norm2_sq x
  rw [h, zero_pow two_ne_zero] at h2
  have := (Finset.sum_eq_zero_iff_of_nonneg fun i _ => sq_nonneg (x i)).1 h2.symm i (Finset.mem_univ i)
  exact pow_eq_zero_iff two_ne_zero |>.1 this

theorem abs_le_norm2 (x : Fin n → ℝ) (i : Fin n) : |x i| ≤ norm2 x := by
  rw [← Real.sqrt_sq_eq_abs]
  exact Real.sqrt_le_sqrt (Finset.single_le_sum (f := fun i => x i ^ 2) (fun _ _ => sq_nonneg _) (Finset.mem_univ i))

theorem abs_dot_le (x y : Fin n → ℝ) : ∑ i, |x i| * |y i| ≤ norm2 x * norm2 y := by
  have h := Finset.sum_mul_sq_le_sq_mul_sq Finset.univ (fun i => |x i|) (fun i => |y i|)
  simp only [sq_abs] at h
  rw [← norm2_sq, ← norm2_sq, ← mul_pow] at h
  exact le_of_sq_le_sq_of_nonneg h (mul_nonneg (norm2_nonneg _) (norm2_nonneg _))
where
  le_of_sq_le_sq_of_nonneg {a b : ℝ} (h : a ^ 2 ≤ b ^ 2) (hb : 0 ≤ b) : a ≤ b := abs_le_of_sq_le_sq' h hb |>.2

theorem dot_abs_le (x y : Fin n → ℝ) : |∑ i, x i * y i| ≤ norm2 x * norm2 y := by
  refine (Finset.abs_sum_le_sum_abs _ _).trans ?_
  simp only [abs_mul]
  exact abs_dot_le x y

/-- A tuple whose elements are bounded. -/
theorem norm2_le_sqrt {x : Fin n → ℝ} {B : ℝ} (hB : 0 ≤ B) (h : ∀ i, |x i| ≤ B) : norm2 x ≤ Real.sqrt n * B := by
  have h1 : ∑ i, x i ^ 2 ≤ n * B ^ 2 := by
    have := Finset.sum_le_card_nsmul Finset.univ (fun i => x i ^ 2) (B ^ 2) fun i _ => by
      rw [← sq_abs]; exact pow_le_pow_left₀ (abs_nonneg _) (h i) 2
    simpa using this
  unfold norm2
  refine (Real.sqrt_le_sqrt h1).trans ?_
  rw [Real.sqrt_mul (Nat.cast_nonneg n), Real.sqrt_sq hB]

/-- Orthogonal matrices keep lengths. -/
theorem norm2_mulVec {P : Matrix (Fin m) (Fin n) ℝ} (h : P.transpose * P = 1) (x : Fin n → ℝ) : norm2 (P.mulVec x) = norm2 x := by
  unfold norm2
  congr 1
  have e1 : ∑ i, (P.mulVec x) i ^ 2 = (P.mulVec x) ⬝ᵥ (P.mulVec x) := by simp [dotProduct, sq]
  have e2 : ∑ i, x i ^ 2 = x ⬝ᵥ x := by simp [dotProduct, sq]
  rw [e1, e2, Matrix.dotProduct_mulVec, Matrix.vecMul_mulVec, h, Matrix.vecMul_one]

end Mathter
