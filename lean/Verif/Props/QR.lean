import Verif.Lemmas.QR

/-!
# Properties C37–C39: QR and LQ decompositions, least squares

`A` ranges over all real or complex matrices of any shape admitted by the `static_assert`; `lo`, `hi` are the smallest and largest
normal value of the scalar type, about which only `0 < lo ≤ hi` is used. `none` is a division by zero.
-/

namespace Mathter.Props
open Mathter
universe u
variable {𝕜 : Type u} [RCLike 𝕜] {r n m : ℕ}

/-- C37: `DecomposeQR` of every matrix with at least as many rows as columns, rank deficient ones included. -/
theorem C37_qr (lo hi : ℝ) (hlo : 0 < lo) (hh : lo ≤ hi) (hrn : n + 1 ≤ r + 1) (A : Matrix (Fin (r + 1)) (Fin (n + 1)) 𝕜) :
    ((decomposeQR lo hi hrn A).Q.conjTranspose * (decomposeQR lo hi hrn A).Q = 1) ∧
    (∀ i j, j < i → (decomposeQR lo hi hrn A).R i j = 0) ∧
    (decomposeQR lo hi hrn A).Q * (decomposeQR lo hi hrn A).R = A := decomposeQR_spec lo hi hlo hh hrn A

/-- C37: for square matrices `Q` is unitary on both sides. -/
theorem C37_square (lo hi : ℝ) (hlo : 0 < lo) (hh : lo ≤ hi) (A : Matrix (Fin (n + 1)) (Fin (n + 1)) 𝕜) :
    (decomposeQR lo hi le_rfl A).Q * (decomposeQR lo hi le_rfl A).Q.conjTranspose = 1 :=
  mul_eq_one_comm.1 (C37_qr lo hi hlo hh le_rfl A).1

/-- C38: `DecomposeLQ` of every matrix with at most as many rows as columns. -/
theorem C38_lq (lo hi : ℝ) (hlo : 0 < lo) (hh : lo ≤ hi) (hrn : r + 1 ≤ n + 1) (A : Matrix (Fin (r + 1)) (Fin (n + 1)) 𝕜) :
    ((decomposeLQ lo hi hrn A).Q * (decomposeLQ lo hi hrn A).Q.conjTranspose = 1) ∧
    (∀ i j, i < j → (decomposeLQ lo hi hrn A).L i j = 0) ∧
    (decomposeLQ lo hi hrn A).L * (decomposeLQ lo hi hrn A).Q = A := by
  obtain ⟨h1, h2, h3⟩ := decomposeQR_spec lo hi hlo hh hrn A.transpose
  unfold decomposeLQ
  simp only
  refine ⟨?_, fun i j hij => h2 j i hij, ?_⟩
  · have := congrArg Matrix.transpose h1
    rw [Matrix.transpose_mul, Matrix.transpose_one] at this
    rw [← this]
    rfl
  · rw [← Matrix.transpose_mul, h3, Matrix.transpose_transpose]

/-! ## C39 -/
section C39

private theorem R_diag_ne {A : Matrix (Fin r) (Fin n) 𝕜} {Q : Matrix (Fin r) (Fin n) 𝕜} {R : Matrix (Fin n) (Fin n) 𝕜}
    (hR : ∀ i j, j < i → R i j = 0) (h : Q * R = A) (hA : ∀ y, A.mulVec y = 0 → y = 0) (i : Fin n) : R i i ≠ 0 := by
  intro h0
  have hdet : R.det = 0 := by
    rw [Matrix.det_of_isUpperTriangular (fun i j h => hR i j h)]
    exact Finset.prod_eq_zero (Finset.mem_univ i) h0
  obtain ⟨y, hy, hy0⟩ := Matrix.exists_mulVec_eq_zero_iff.2 hdet
  apply hy
  apply hA
  rw [← h, ← Matrix.mulVec_mulVec, hy0, Matrix.mulVec_zero]

/-- Pythagoras: a solution of the normal equations is optimal. -/
theorem optimal_of_normal {A : Matrix (Fin r) (Fin n) 𝕜} {b : Fin r → 𝕜} {x : Fin n → 𝕜}
    (h : A.conjTranspose.mulVec (A.mulVec x - b) = 0) (y : Fin n → 𝕜) : length (A.mulVec x - b) ≤ length (A.mulVec y - b) := by
  have hd : A.mulVec y - b = A.mulVec (y - x) + (A.mulVec x - b) := by rw [Matrix.mulVec_sub]; abel
  have horth : dot (A.mulVec x - b) (A.mulVec (y - x)) = 0 := by
    rw [dot_eq_sum]
    have e : ∑ i, (A.mulVec x - b) i * star (A.mulVec (y - x) i)
        = ∑ j, A.conjTranspose.mulVec (A.mulVec x - b) j * star ((y - x) j) := by
      simp only [Matrix.mulVec, dotProduct, star_sum, star_mul', Finset.mul_sum, Finset.sum_mul, Matrix.conjTranspose_apply]
      rw [Finset.sum_comm]
      exact Finset.sum_congr rfl fun j _ => Finset.sum_congr rfl fun i _ => by ring
    rw [e, h]; simp
  rw [hd, length_eq_norm, length_eq_norm]
  rw [dot_eq_inner] at horth
  have e2 : toE (A.mulVec (y - x) + (A.mulVec x - b)) = toE (A.mulVec (y - x)) + toE (A.mulVec x - b) := rfl
  rw [e2]
  have := norm_add_sq_eq_norm_sq_add_norm_sq_of_inner_eq_zero (𝕜 := 𝕜) _ _ horth
  nlinarith [norm_nonneg (toE (A.mulVec x - b)), norm_nonneg (toE (A.mulVec (y - x))), norm_nonneg (toE (A.mulVec (y - x)) + toE (A.mulVec x - b))]

variable [DecidableEq 𝕜]

private theorem qrSolve_normal {A : Matrix (Fin r) (Fin n) 𝕜} {d : QR 𝕜 r n} (h1 : d.Q.conjTranspose * d.Q = 1) (h2 : ∀ i j, j < i → d.R i j = 0)
    (h3 : d.Q * d.R = A) (hA : ∀ y, A.mulVec y = 0 → y = 0) (b : Matrix (Fin r) (Fin m) 𝕜) :
    ∃ x, qrSolve d b = some x ∧ A.conjTranspose * (A * x - b) = 0 := by
  obtain ⟨x, hx, hx'⟩ := solveUpper_correct d.R (d.Q.conjTranspose * b) h2 (R_diag_ne h2 h3 hA)
  refine ⟨x, hx, ?_⟩
  rw [Matrix.mul_sub, ← h3, Matrix.conjTranspose_mul, Matrix.mul_assoc d.Q, hx', Matrix.mul_assoc, Matrix.mul_assoc,
    ← Matrix.mul_assoc d.Q.conjTranspose, h1, Matrix.one_mul, sub_self]

/-- C39: for full column rank, every column of `Solve(b)` minimises `|Ax - b|` among all `x`, for any number of right-hand sides. -/
theorem C39_least_squares (lo hi : ℝ) (hlo : 0 < lo) (hh : lo ≤ hi) (hrn : n + 1 ≤ r + 1) (A : Matrix (Fin (r + 1)) (Fin (n + 1)) 𝕜)
    (hA : ∀ y, A.mulVec y = 0 → y = 0) (b : Matrix (Fin (r + 1)) (Fin m) 𝕜) :
    ∃ x, qrSolve (decomposeQR lo hi hrn A) b = some x ∧
      ∀ j y, length (A.mulVec (fun i => x i j) - fun i => b i j) ≤ length (A.mulVec y - fun i => b i j) := by
  obtain ⟨h1, h2, h3⟩ := C37_qr lo hi hlo hh hrn A
  obtain ⟨x, hx, hn⟩ := qrSolve_normal h1 h2 h3 hA b
  refine ⟨x, hx, fun j y => optimal_of_normal ?_ y⟩
  funext i
  exact congrFun (congrFun hn i) j

/-- C39: the least squares solution is unique, and it is the exact solution whenever one exists. -/
theorem C39_exact (lo hi : ℝ) (hlo : 0 < lo) (hh : lo ≤ hi) (hrn : n + 1 ≤ r + 1) (A : Matrix (Fin (r + 1)) (Fin (n + 1)) 𝕜)
    (hA : ∀ y, A.mulVec y = 0 → y = 0) (z : Matrix (Fin (n + 1)) (Fin m) 𝕜) :
    qrSolve (decomposeQR lo hi hrn A) (A * z) = some z := by
  obtain ⟨x, hx, hopt⟩ := C39_least_squares lo hi hlo hh hrn A hA (A * z)
  rw [hx]
  congr 1
  ext i j
  have h0 : A.mulVec (fun i => z i j) - (fun i => (A * z) i j) = 0 := by
    funext i; exact sub_self _
  have := hopt j (fun i => z i j)
  rw [h0, (length_eq_zero (0 : Fin (r + 1) → 𝕜)).2 rfl] at this
  have h2 := (length_eq_zero _).1 (le_antisymm this (length_nonneg _))
  have h3 : A.mulVec ((fun i => x i j) - fun i => z i j) = 0 := by
    rw [Matrix.mulVec_sub, sub_eq_zero]
    exact sub_eq_zero.1 h2
  exact sub_eq_zero.1 (congrFun (hA _ h3) i)

/-- C39: a vector as right-hand side. -/
theorem C39_vector (lo hi : ℝ) (hlo : 0 < lo) (hh : lo ≤ hi) (hrn : n + 1 ≤ r + 1) (A : Matrix (Fin (r + 1)) (Fin (n + 1)) 𝕜)
    (hA : ∀ y, A.mulVec y = 0 → y = 0) (b : Fin (r + 1) → 𝕜) :
    ∃ x, qrSolveVec (decomposeQR lo hi hrn A) b = some x ∧ ∀ y, length (A.mulVec x - b) ≤ length (A.mulVec y - b) := by
  obtain ⟨x, hx, hopt⟩ := C39_least_squares lo hi hlo hh hrn A hA (Matrix.of fun i (_ : Fin 1) => b i)
  exact ⟨fun i => x i 0, by rw [qrSolveVec, hx]; rfl, fun y => hopt 0 y⟩

private theorem qrInverse_spec {A : Matrix (Fin r) (Fin n) 𝕜} {d : QR 𝕜 r n} (h1 : d.Q.conjTranspose * d.Q = 1) (h2 : ∀ i j, j < i → d.R i j = 0)
    (h3 : d.Q * d.R = A) (hA : ∀ y, A.mulVec y = 0 → y = 0) :
    ∃ X, qrInverse d = some X ∧ X * A = 1 ∧ (A * X).conjTranspose = A * X := by
  obtain ⟨X, hX, hX'⟩ := solveUpper_correct d.R (1 : Matrix (Fin n) (Fin n) 𝕜) h2 (R_diag_ne h2 h3 hA)
  have hX2 : X * d.R = 1 := mul_eq_one_comm.1 hX'
  refine ⟨X * d.Q.conjTranspose, by rw [qrInverse, hX]; rfl, ?_, ?_⟩
  · rw [← h3, Matrix.mul_assoc, ← Matrix.mul_assoc d.Q.conjTranspose, h1, Matrix.one_mul, hX2]
  · have : A * (X * d.Q.conjTranspose) = d.Q * d.Q.conjTranspose := by
      rw [← h3, Matrix.mul_assoc, ← Matrix.mul_assoc d.R, hX', Matrix.one_mul]
    rw [this, Matrix.conjTranspose_mul, Matrix.conjTranspose_conjTranspose]

/-- C39: `Inverse()` for full column rank is a left inverse and satisfies the four Penrose conditions, that is, it is the pseudoinverse. -/
theorem C39_pseudoinverse (lo hi : ℝ) (hlo : 0 < lo) (hh : lo ≤ hi) (hrn : n + 1 ≤ r + 1) (A : Matrix (Fin (r + 1)) (Fin (n + 1)) 𝕜)
    (hA : ∀ y, A.mulVec y = 0 → y = 0) :
    ∃ X, qrInverse (decomposeQR lo hi hrn A) = some X ∧ X * A = 1 ∧
      A * X * A = A ∧ X * A * X = X ∧ (A * X).conjTranspose = A * X ∧ (X * A).conjTranspose = X * A := by
  obtain ⟨h1, h2, h3⟩ := C37_qr lo hi hlo hh hrn A
  obtain ⟨X, hX, hl, hs⟩ := qrInverse_spec h1 h2 h3 hA
  exact ⟨X, hX, hl, by rw [Matrix.mul_assoc, hl, Matrix.mul_one], by rw [hl, Matrix.one_mul], hs, by rw [hl, Matrix.conjTranspose_one]⟩

/-- C39: for an invertible square matrix it is the two-sided inverse. -/
theorem C39_square_inverse (lo hi : ℝ) (hlo : 0 < lo) (hh : lo ≤ hi) (A : Matrix (Fin (n + 1)) (Fin (n + 1)) 𝕜) (hA : A.det ≠ 0) :
    ∃ X, qrInverse (decomposeQR lo hi le_rfl A) = some X ∧ X * A = 1 ∧ A * X = 1 := by
  obtain ⟨X, hX, hl, -⟩ := C39_pseudoinverse lo hi hlo hh le_rfl A (fun y hy => Matrix.eq_zero_of_mulVec_eq_zero hA hy)
  exact ⟨X, hX, hl, mul_eq_one_comm.1 hl⟩

/-- C39: LQ with a vector on the left: for full row rank `Solve(b)` minimises `|xA - b|`. -/
theorem C39_lq_vector (lo hi : ℝ) (hlo : 0 < lo) (hh : lo ≤ hi) (hrn : r + 1 ≤ n + 1) (A : Matrix (Fin (r + 1)) (Fin (n + 1)) 𝕜)
    (hA : ∀ y, A.vecMul y = 0 → y = 0) (b : Fin (n + 1) → 𝕜) :
    ∃ x, lqSolveVec (decomposeLQ lo hi hrn A) b = some x ∧ ∀ y, length (A.vecMul x - b) ≤ length (A.vecMul y - b) := by
  obtain ⟨x, hx, h⟩ := C39_vector lo hi hlo hh hrn A.transpose (fun y hy => hA y (by rwa [Matrix.mulVec_transpose] at hy)) b
  simp only [Matrix.mulVec_transpose] at h
  exact ⟨x, hx, h⟩

/-- C39: LQ, several right-hand sides (instantiable for square matrices only). -/
theorem C39_lq_matrix (lo hi : ℝ) (hlo : 0 < lo) (hh : lo ≤ hi) (A : Matrix (Fin (n + 1)) (Fin (n + 1)) 𝕜) (hA : A.det ≠ 0)
    (z : Matrix (Fin m) (Fin (n + 1)) 𝕜) : lqSolve (decomposeLQ lo hi le_rfl A) (z * A) = some z := by
  have h := C39_exact lo hi hlo hh le_rfl A.transpose
    (fun y hy => Matrix.eq_zero_of_mulVec_eq_zero (by rwa [Matrix.det_transpose]) hy) z.transpose
  unfold lqSolve
  have e : (⟨(decomposeLQ lo hi le_rfl A).Q.transpose, (decomposeLQ lo hi le_rfl A).L.transpose⟩ : QR 𝕜 (n + 1) (n + 1))
    = decomposeQR lo hi le_rfl A.transpose := rfl
  rw [e, Matrix.transpose_mul, h]
  rfl

/-- C39: `DecompositionLQ::Inverse()` for full row rank is the pseudoinverse, a right inverse. -/
theorem C39_lq_pseudoinverse (lo hi : ℝ) (hlo : 0 < lo) (hh : lo ≤ hi) (hrn : r + 1 ≤ n + 1) (A : Matrix (Fin (r + 1)) (Fin (n + 1)) 𝕜)
    (hA : ∀ y, A.vecMul y = 0 → y = 0) :
    ∃ X, lqInverse (decomposeLQ lo hi hrn A) = some X ∧ A * X = 1 ∧
      A * X * A = A ∧ X * A * X = X ∧ (A * X).conjTranspose = A * X ∧ (X * A).conjTranspose = X * A := by
  obtain ⟨h1, h2, h3⟩ := C37_qr lo hi hlo hh hrn A.transpose
  obtain ⟨X, hX, hl, hs⟩ := qrInverse_spec h1 h2 h3 (fun y hy => hA y (by rwa [Matrix.mulVec_transpose] at hy))
  have hr : A * X.transpose = 1 := by
    have := congrArg Matrix.transpose hl
    rwa [Matrix.transpose_mul, Matrix.transpose_transpose, Matrix.transpose_one] at this
  have hs' : (X.transpose * A).conjTranspose = X.transpose * A := by
    have e : X.transpose * A = (A.transpose * X).transpose := by rw [Matrix.transpose_mul, Matrix.transpose_transpose]
    rw [e]
    exact congrArg Matrix.transpose hs
  refine ⟨X.transpose, ?_, hr, by rw [hr, Matrix.one_mul], by rw [Matrix.mul_assoc, hr, Matrix.mul_one],
    by rw [hr, Matrix.conjTranspose_one], hs'⟩
  have e : (⟨(decomposeLQ lo hi hrn A).Q.transpose, (decomposeLQ lo hi hrn A).L.transpose⟩ : QR 𝕜 (n + 1) (r + 1))
    = decomposeQR lo hi hrn A.transpose := rfl
  rw [lqInverse, e, hX]
  rfl

/-- C39: without full column rank `Solve` divides by zero. -/
theorem C39_rank_deficient (lo hi : ℝ) (hlo : 0 < lo) (hh : lo ≤ hi) (hrn : n + 1 ≤ r + 1) (A : Matrix (Fin (r + 1)) (Fin (n + 1)) 𝕜)
    (y : Fin (n + 1) → 𝕜) (hy : y ≠ 0) (hA : A.mulVec y = 0) (b : Matrix (Fin (r + 1)) (Fin m) 𝕜) :
    qrSolve (decomposeQR lo hi hrn A) b = none := by
  obtain ⟨h1, h2, h3⟩ := C37_qr lo hi hlo hh hrn A
  have hR : (decomposeQR lo hi hrn A).R.mulVec y = 0 := by
    have e : (decomposeQR lo hi hrn A).R = (decomposeQR lo hi hrn A).Q.conjTranspose * A := by
      rw [← h3, ← Matrix.mul_assoc, h3, h1, Matrix.one_mul]
    rw [e, ← Matrix.mulVec_mulVec, hA, Matrix.mulVec_zero]
  have hdet := Matrix.exists_mulVec_eq_zero_iff.1 ⟨y, hy, hR⟩
  rw [Matrix.det_of_isUpperTriangular (fun i j h => h2 i j h)] at hdet
  obtain ⟨i, -, hi⟩ := Finset.prod_eq_zero_iff.1 hdet
  exact solveUpper_none _ _ h2 i hi

example : ∀ y, (!![1; 2] : Matrix (Fin 2) (Fin 1) ℝ).mulVec y = 0 → y = 0 := by
  intro y h
  have := congrFun h 0
  funext i
  fin_cases i
  simpa [Matrix.mulVec, dotProduct] using this
example : ∀ y, (!![1, 2] : Matrix (Fin 1) (Fin 2) ℝ).vecMul y = 0 → y = 0 := by
  intro y h
  have := congrFun h 0
  funext i
  fin_cases i
  simpa [Matrix.vecMul, dotProduct] using this
example : (0 : ℝ) < 1 ∧ (1 : ℝ) ≤ 2 ∧ 0 + 1 ≤ 1 + 1 := by norm_num
example : (!![0; 0] : Matrix (Fin 2) (Fin 1) ℝ).mulVec ![1] = 0 ∧ (![1] : Fin 1 → ℝ) ≠ 0 := by
  constructor
  · funext i; fin_cases i <;> simp [Matrix.mulVec, dotProduct]
  · intro h; simpa using congrFun h 0
end C39

end Mathter.Props
