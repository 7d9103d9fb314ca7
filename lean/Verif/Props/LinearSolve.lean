import Mathlib.Algebra.Field.Rat
import Mathlib.LinearAlgebra.Matrix.ToLin
import Verif.Lemmas.LinearSolve
import Verif.Props.Bareiss

/-!
# Properties C31, C33–C36: triangular solvers, LU and LUP decompositions, and what is solved with them

Specifications used: matrix product and determinant of Mathlib, triangularity spelled out on elements, `leading` (leading principal
submatrix). `none` is a division by zero.
-/

namespace Mathter.Props
open Mathter
universe u
variable {K : Type u} {n m : ℕ}

/-! ## C33 -/
section C33
variable [Field K]

private theorem det_upper_ne (A : Matrix (Fin n) (Fin n) K) (ht : ∀ i j, j < i → A i j = 0) (hd : ∀ i, A i i ≠ 0) : A.det ≠ 0 := by
  rw [Matrix.det_of_isUpperTriangular (fun i j h => ht i j h)]
  exact Finset.prod_ne_zero_iff.2 fun i _ => hd i

private theorem det_lower_ne (A : Matrix (Fin n) (Fin n) K) (ht : ∀ i j, i < j → A i j = 0) (hd : ∀ i, A i i ≠ 0) : A.det ≠ 0 := by
  rw [Matrix.det_of_isLowerTriangular A (fun i j h => ht i j h)]
  exact Finset.prod_ne_zero_iff.2 fun i _ => hd i

private theorem cancel_left {A : Matrix (Fin n) (Fin n) K} (h : A.det ≠ 0) {X Y : Matrix (Fin n) (Fin m) K} (e : A * X = A * Y) : X = Y := by
  have hu : IsUnit A.det := isUnit_iff_ne_zero.2 h
  rw [← Matrix.nonsing_inv_mul_cancel_left A X hu, e, Matrix.nonsing_inv_mul_cancel_left A Y hu]

private theorem cancel_right {A : Matrix (Fin n) (Fin n) K} (h : A.det ≠ 0) {X Y : Matrix (Fin m) (Fin n) K} (e : X * A = Y * A) : X = Y := by
  have hu : IsUnit A.det := isUnit_iff_ne_zero.2 h
  rw [← Matrix.mul_nonsing_inv_cancel_right A X hu, e, Matrix.mul_nonsing_inv_cancel_right A Y hu]

variable [DecidableEq K]

/-- C33: `SolveUpperTriangular` with the matrix preceding the vector: the result exists and is the only solution of `A * x = b`. -/
theorem C33_upper (A : Matrix (Fin n) (Fin n) K) (b : Matrix (Fin n) (Fin m) K) (ht : ∀ i j, j < i → A i j = 0) (hd : ∀ i, A i i ≠ 0) :
    ∃ x, solveUpper A b = some x ∧ A * x = b ∧ ∀ y, A * y = b → y = x := by
  obtain ⟨x, h, hx⟩ := solveUpper_correct A b ht hd
  exact ⟨x, h, hx, fun y hy => cancel_left (det_upper_ne A ht hd) (hy.trans hx.symm)⟩

/-- C33: `SolveLowerTriangular` with the matrix preceding the vector. -/
theorem C33_lower (A : Matrix (Fin n) (Fin n) K) (b : Matrix (Fin n) (Fin m) K) (ht : ∀ i j, i < j → A i j = 0) (hd : ∀ i, A i i ≠ 0) :
    ∃ x, solveLower A b = some x ∧ A * x = b ∧ ∀ y, A * y = b → y = x := by
  obtain ⟨x, h, hx⟩ := solveLower_correct A b ht hd
  exact ⟨x, h, hx, fun y hy => cancel_left (det_lower_ne A ht hd) (hy.trans hx.symm)⟩

/-- C33: `SolveUpperTriangular` with the matrix following the vector solves `x * A = b`. -/
theorem C33_upper_follow (A : Matrix (Fin n) (Fin n) K) (b : Matrix (Fin m) (Fin n) K) (ht : ∀ i j, j < i → A i j = 0) (hd : ∀ i, A i i ≠ 0) :
    ∃ x, solveUpperFollow A b = some x ∧ x * A = b ∧ ∀ y, y * A = b → y = x := by
  obtain ⟨x, h, hx⟩ := solveLower_correct A.transpose b.transpose (fun i j h => ht j i h) hd
  have hx' : x.transpose * A = b := by rw [← Matrix.transpose_inj, Matrix.transpose_mul, Matrix.transpose_transpose, hx]
  exact ⟨x.transpose, by rw [solveUpperFollow, h]; rfl, hx', fun y hy => cancel_right (det_upper_ne A ht hd) (hy.trans hx'.symm)⟩

/-- C33: `SolveLowerTriangular` with the matrix following the vector solves `x * A = b`. -/
theorem C33_lower_follow (A : Matrix (Fin n) (Fin n) K) (b : Matrix (Fin m) (Fin n) K) (ht : ∀ i j, i < j → A i j = 0) (hd : ∀ i, A i i ≠ 0) :
    ∃ x, solveLowerFollow A b = some x ∧ x * A = b ∧ ∀ y, y * A = b → y = x := by
  obtain ⟨x, h, hx⟩ := solveUpper_correct A.transpose b.transpose (fun i j h => ht j i h) hd
  have hx' : x.transpose * A = b := by rw [← Matrix.transpose_inj, Matrix.transpose_mul, Matrix.transpose_transpose, hx]
  exact ⟨x.transpose, by rw [solveLowerFollow, h]; rfl, hx', fun y hy => cancel_right (det_lower_ne A ht hd) (hy.trans hx'.symm)⟩

example : ∃ x, solveUpper (!![2, 1; 0, 4] : Matrix (Fin 2) (Fin 2) ℚ) !![4; 8] = some x ∧ x = !![1; 2] := by
  obtain ⟨x, h, -, hu⟩ := C33_upper (!![2, 1; 0, 4] : Matrix (Fin 2) (Fin 2) ℚ) !![4; 8]
    (by intro i j h; fin_cases i <;> fin_cases j <;> simp at h ⊢) (by intro i; fin_cases i <;> simp)
  exact ⟨x, h, (hu _ (by ext i j; fin_cases i <;> fin_cases j <;> norm_num [Matrix.mul_apply, Fin.sum_univ_succ])).symm⟩
example : ∀ i j : Fin 2, i < j → (!![2, 0; 3, 4] : Matrix (Fin 2) (Fin 2) ℚ) i j = 0 := by
  intro i j h; fin_cases i <;> fin_cases j <;> simp at h ⊢

/-- C33: the solvers do read the other triangle: with a nonzero element below the diagonal `SolveUpperTriangular` does not return the
solution of the system formed by the upper triangle. -/
theorem C33_reads_other_triangle :
    ∃ (A B : Matrix (Fin 3) (Fin 3) ℚ) (b : Matrix (Fin 3) (Fin 1) ℚ), (∀ i j, i ≤ j → A i j = B i j) ∧ solveUpper A b ≠ solveUpper B b := by
  refine ⟨!![1, 1, 1; 0, 1, 0; 0, 1, 1], !![1, 1, 1; 0, 1, 0; 0, 0, 1], !![1; 1; 1],
    by intro i j h; fin_cases i <;> fin_cases j <;> simp at h ⊢, ?_⟩
  decide +kernel
end C33

/-! ## C34 -/
section C34
variable [Field K] [DecidableEq K]

/-- C34: whenever `DecomposeLU` meets no zero pivot, `L` is unit lower triangular, `U` is upper triangular and `L * U` is the matrix. -/
theorem C34_factors (A : Matrix (Fin (n + 1)) (Fin (n + 1)) K) (d : LU K (n + 1)) (h : decomposeLU A = some d) :
    (∀ i, d.L i i = 1) ∧ (∀ i j, i < j → d.L i j = 0) ∧ (∀ i j, j < i → d.U i j = 0) ∧ d.L * d.U = A := by
  rcases decomposeLU_inv A with ⟨d', h', hI, -⟩ | ⟨h', -⟩
  · rw [h] at h'; cases h'
    exact ⟨hI.diag, hI.final⟩
  · rw [h] at h'; cases h'

/-- C34: `DecomposeLU` meets no zero pivot exactly when the leading principal minors of order `1 … Dim-1` are nonzero. -/
theorem C34_pivots (A : Matrix (Fin (n + 1)) (Fin (n + 1)) K) :
    (decomposeLU A).isSome ↔ ∀ s (h : s + 1 ≤ n), (leading A (s + 1) (by omega)).det ≠ 0 := by
  rcases decomposeLU_inv A with ⟨d, h, hI, hd⟩ | ⟨h, s, hs, h0⟩
  · rw [h]
    simp only [Option.isSome_some, true_iff]
    intro s hs
    unfold leading
    rw [hI.minor (s + 1) (by omega) (by omega)]
    exact Finset.prod_ne_zero_iff.2 fun q _ => hd ⟨q.val, by omega⟩
  · rw [h]
    simp only [Option.isSome_none, Bool.false_eq_true, false_iff]
    intro hall
    exact hall s hs h0

/-- C34: the decomposition is the only one into a unit lower and an upper triangular factor of an invertible matrix. -/
theorem C34_unique (A : Matrix (Fin (n + 1)) (Fin (n + 1)) K) (d : LU K (n + 1)) (h : decomposeLU A = some d) (hA : A.det ≠ 0)
    (L U : Matrix (Fin (n + 1)) (Fin (n + 1)) K) (h1 : ∀ i, L i i = 1) (h2 : ∀ i j, i < j → L i j = 0) (h3 : ∀ i j, j < i → U i j = 0)
    (h4 : L * U = A) : L = d.L ∧ U = d.U := by
  obtain ⟨g1, g2, g3, g4⟩ := C34_factors A d h
  have key : ∀ k : ℕ, ∀ i j : Fin (n + 1), min i.val j.val < k → L i j = d.L i j ∧ U i j = d.U i j := by
    have hUd : ∀ i, d.U i i ≠ 0 := by
      have : d.U.det ≠ 0 := by
        rw [← g4, Matrix.det_mul] at hA; exact right_ne_zero_of_mul hA
      rw [Matrix.det_of_isUpperTriangular (fun i j h => g3 i j h)] at this
      exact fun i => Finset.prod_ne_zero_iff.1 this i (Finset.mem_univ i)
    intro k
    induction k with
    | zero => intro i j h; omega
    | succ k ih =>
      -- row k of U, then column k of L
      have hrow : ∀ i j : Fin (n + 1), i.val = k → U i j = d.U i j := by
        intro i j hi
        by_cases hji : j < i
        · rw [h3 i j hji, g3 i j hji]
        have e : (L * U) i j = (d.L * d.U) i j := by rw [h4, g4]
        rw [Matrix.mul_apply, Matrix.mul_apply, ← Finset.add_sum_erase _ _ (Finset.mem_univ i),
          ← Finset.add_sum_erase _ (fun q => d.L i q * d.U q j) (Finset.mem_univ i)] at e
        have es : ∑ q ∈ Finset.univ.erase i, L i q * U q j = ∑ q ∈ Finset.univ.erase i, d.L i q * d.U q j := by
          apply Finset.sum_congr rfl
          intro q hq
          have hqi : q ≠ i := Finset.ne_of_mem_erase hq
          have hv : q.val ≠ i.val := fun h => hqi (Fin.ext h)
          by_cases hlt : q < i
          · rw [Fin.lt_def] at hlt
            rw [(ih i q (by omega)).1, (ih q j (by omega)).2]
          · have : i < q := lt_of_le_of_ne (not_lt.1 hlt) hqi.symm
            rw [h2 i q this, g2 i q this]; ring
        rw [es] at e
        have := add_right_cancel e
        rwa [h1, g1, one_mul, one_mul] at this
      have hcol : ∀ i j : Fin (n + 1), j.val = k → L i j = d.L i j := by
        intro i j hj
        by_cases hij : i ≤ j
        · rcases hij.lt_or_eq with hij | hij
          · rw [h2 i j hij, g2 i j hij]
          · rw [hij, h1, g1]
        have e : (L * U) i j = (d.L * d.U) i j := by rw [h4, g4]
        rw [Matrix.mul_apply, Matrix.mul_apply, ← Finset.add_sum_erase _ _ (Finset.mem_univ j),
          ← Finset.add_sum_erase _ (fun q => d.L i q * d.U q j) (Finset.mem_univ j)] at e
        have es : ∑ q ∈ Finset.univ.erase j, L i q * U q j = ∑ q ∈ Finset.univ.erase j, d.L i q * d.U q j := by
          apply Finset.sum_congr rfl
          intro q hq
          have hqi : q ≠ j := Finset.ne_of_mem_erase hq
          have hv : q.val ≠ j.val := fun h => hqi (Fin.ext h)
          by_cases hlt : q < j
          · rw [Fin.lt_def] at hlt
            rw [(ih i q (by omega)).1, (ih q j (by omega)).2]
          · have : j < q := lt_of_le_of_ne (not_lt.1 hlt) hqi.symm
            rw [h3 q j this, g3 q j this]; ring
        rw [es] at e
        have := add_right_cancel e
        rw [hrow j j hj] at this
        exact mul_right_cancel₀ (hUd j) this
      intro i j hmin
      by_cases h : min i.val j.val < k
      · exact ih i j h
      · by_cases hi : i.val = k
        · refine ⟨?_, hrow i j hi⟩
          by_cases hj : j.val = k
          · exact hcol i j hj
          · have : i < j := by rw [Fin.lt_def]; omega
            rw [h2 i j this, g2 i j this]
        · have hj : j.val = k := by omega
          refine ⟨hcol i j hj, ?_⟩
          have : j < i := by rw [Fin.lt_def]; omega
          rw [h3 i j this, g3 i j this]
  constructor
  · ext i j; exact (key (n + 1) i j (by omega)).1
  · ext i j; exact (key (n + 1) i j (by omega)).2

example : (decomposeLU (!![2, 1; 4, 5] : Matrix (Fin 2) (Fin 2) ℚ)).isSome := by
  rw [C34_pivots]
  intro s hs
  obtain rfl : s = 0 := by omega
  simp [leading]
example : decomposeLU (!![0, 1; 1, 0] : Matrix (Fin 2) (Fin 2) ℚ) = none := by decide +kernel
end C34

/-! ## C35 -/
section C35
variable {𝕜 : Type u} [RCLike 𝕜]

/-- C35: `DecomposeLUP` of every square matrix, singular ones included. -/
theorem C35_factors (A : Matrix (Fin (n + 1)) (Fin (n + 1)) 𝕜) :
    Function.Bijective (decomposeLUP A).P ∧
    (∀ i, (decomposeLUP A).L i i = 1) ∧ (∀ i j, i < j → (decomposeLUP A).L i j = 0) ∧ (∀ i j, ‖(decomposeLUP A).L i j‖ ≤ 1) ∧
    (∀ i j, j < i → (decomposeLUP A).U i j = 0) ∧
    (decomposeLUP A).L * (decomposeLUP A).U = A.submatrix (decomposeLUP A).P id := by
  have h := decomposeLUP_inv A
  obtain ⟨h1, h2, h3⟩ := h.lu.final
  exact ⟨Finite.injective_iff_bijective.1 h.inj, h.lu.diag, h1, h.bound, h2, h3⟩

/-- C35: in terms of the expanded permutation matrix. -/
theorem C35_expanded (A : Matrix (Fin (n + 1)) (Fin (n + 1)) 𝕜) :
    (expandPermutation (decomposeLUP A).P : Matrix (Fin (n + 1)) (Fin (n + 1)) 𝕜) * A = (decomposeLUP A).L * (decomposeLUP A).U := by
  rw [(C35_factors A).2.2.2.2.2, expandPermutation_eq]
  ext i j
  simp [Matrix.mul_apply]

/-- C35: the expanded permutation has exactly one 1 in each row and column and zeros elsewhere. -/
theorem C35_expand_perm [Zero K] [One K] (P : Fin n → Fin n) (i j : Fin n) :
    (expandPermutation P : Matrix (Fin n) (Fin n) K) i j = if j = P i then 1 else 0 := by
  rw [expandPermutation_eq]; rfl

/-- C35: `A` is singular exactly when `U` has a zero on its diagonal. -/
theorem C35_singular (A : Matrix (Fin (n + 1)) (Fin (n + 1)) 𝕜) : A.det = 0 ↔ ∃ i, (decomposeLUP A).U i i = 0 := by
  obtain ⟨h0, h1, h2, -, h4, h5⟩ := C35_factors A
  have e := congrArg Matrix.det h5
  rw [Matrix.det_mul, Matrix.det_of_isLowerTriangular _ (fun i j h => h2 i j h), Matrix.det_of_isUpperTriangular (fun i j h => h4 i j h)] at e
  simp only [h1, Finset.prod_const_one, one_mul] at e
  have : A.submatrix (decomposeLUP A).P id = A.submatrix (Equiv.ofBijective _ h0) id := rfl
  rw [this, Matrix.det_permute] at e
  have hz : (∃ i, (decomposeLUP A).U i i = 0) ↔ ∏ i, (decomposeLUP A).U i i = 0 := by
    rw [Finset.prod_eq_zero_iff]; simp
  rw [hz, e]
  have hs : ((Equiv.Perm.sign (Equiv.ofBijective _ h0) : ℤ) : 𝕜) ≠ 0 := by
    rcases Int.units_eq_one_or (Equiv.Perm.sign (Equiv.ofBijective _ h0)) with h | h <;> rw [h] <;> simp
  simp [hs]

example : ∃ i, (decomposeLUP (!![0, 1; 0, 0] : Matrix (Fin 2) (Fin 2) ℝ)).U i i = 0 := (C35_singular _).1 (by simp)
example : ¬ ∃ i, (decomposeLUP (!![0, 1; 2, 0] : Matrix (Fin 2) (Fin 2) ℝ)).U i i = 0 := by rw [← C35_singular]; simp
end C35

/-! ## C36 -/
section C36

/-- Core of C36: solving with triangular factors. -/
private theorem luSolve_correct [Field K] [DecidableEq K] {L U : Matrix (Fin n) (Fin n) K} (h1 : ∀ i, L i i = 1) (h2 : ∀ i j, i < j → L i j = 0)
    (h3 : ∀ i j, j < i → U i j = 0) (h4 : ∀ i, U i i ≠ 0) (b : Matrix (Fin n) (Fin m) K) :
    ∃ x, luSolve L U b = some x ∧ L * U * x = b := by
  obtain ⟨y, hy, hy'⟩ := solveLower_correct L b h2 (fun i => by rw [h1]; exact one_ne_zero)
  obtain ⟨x, hx, hx'⟩ := solveUpper_correct U y h3 h4
  exact ⟨x, by rw [luSolve, hy, Option.bind_some, hx], by rw [Matrix.mul_assoc, hx', hy']⟩

private theorem luSolveFollow_correct [Field K] [DecidableEq K] {L U : Matrix (Fin n) (Fin n) K} (h1 : ∀ i, L i i = 1) (h2 : ∀ i j, i < j → L i j = 0)
    (h3 : ∀ i j, j < i → U i j = 0) (h4 : ∀ i, U i i ≠ 0) (b : Matrix (Fin m) (Fin n) K) :
    ∃ x, luSolveFollow L U b = some x ∧ x * (L * U) = b := by
  obtain ⟨y, hy, hy', -⟩ := C33_upper_follow U b h3 h4
  obtain ⟨x, hx, hx', -⟩ := C33_lower_follow L y h2 (fun i => by rw [h1]; exact one_ne_zero)
  exact ⟨x, by rw [luSolveFollow, hy, Option.bind_some, hx], by rw [← Matrix.mul_assoc, hx', hy']⟩

private theorem lu_diag_ne [Field K] {A L U : Matrix (Fin n) (Fin n) K} (h3 : ∀ i j, j < i → U i j = 0) (h5 : L * U = A) (hA : A.det ≠ 0) (i : Fin n) :
    U i i ≠ 0 := by
  rw [← h5, Matrix.det_mul, Matrix.det_of_isUpperTriangular (fun i j h => h3 i j h)] at hA
  exact Finset.prod_ne_zero_iff.1 (right_ne_zero_of_mul hA) i (Finset.mem_univ i)

/-- C36: LU, `PRECEDE_VECTOR`: for an invertible matrix that can be decomposed `Solve` returns the only solution of `A * x = b`. -/
theorem C36_lu [Field K] [DecidableEq K] (A : Matrix (Fin (n + 1)) (Fin (n + 1)) K) (d : LU K (n + 1)) (h : decomposeLU A = some d) (hA : A.det ≠ 0)
    (b : Matrix (Fin (n + 1)) (Fin m) K) : ∃ x, luSolve d.L d.U b = some x ∧ A * x = b ∧ ∀ y, A * y = b → y = x := by
  obtain ⟨h1, h2, h3, h5⟩ := C34_factors A d h
  obtain ⟨x, hx, hx'⟩ := luSolve_correct h1 h2 h3 (lu_diag_ne h3 h5 hA) b
  rw [h5] at hx'
  exact ⟨x, hx, hx', fun y hy => cancel_left hA (hy.trans hx'.symm)⟩

/-- C36: LU, `FOLLOW_VECTOR`. -/
theorem C36_lu_follow [Field K] [DecidableEq K] (A : Matrix (Fin (n + 1)) (Fin (n + 1)) K) (d : LU K (n + 1)) (h : decomposeLU A = some d)
    (hA : A.det ≠ 0) (b : Matrix (Fin m) (Fin (n + 1)) K) : ∃ x, luSolveFollow d.L d.U b = some x ∧ x * A = b ∧ ∀ y, y * A = b → y = x := by
  obtain ⟨h1, h2, h3, h5⟩ := C34_factors A d h
  obtain ⟨x, hx, hx'⟩ := luSolveFollow_correct h1 h2 h3 (lu_diag_ne h3 h5 hA) b
  rw [h5] at hx'
  exact ⟨x, hx, hx', fun y hy => cancel_right hA (hy.trans hx'.symm)⟩

variable {𝕜 : Type u} [RCLike 𝕜] [DecidableEq 𝕜]

/-- C36: LUP, `PRECEDE_VECTOR`: for every invertible matrix `Solve` returns the only solution of `A * x = b`, whatever the temporaries
held before. -/
theorem C36_lup (A : Matrix (Fin (n + 1)) (Fin (n + 1)) 𝕜) (hA : A.det ≠ 0) (b0 b : Matrix (Fin (n + 1)) (Fin m) 𝕜) :
    ∃ x, lupSolve (decomposeLUP A) b0 b = some x ∧ A * x = b ∧ ∀ y, A * y = b → y = x := by
  obtain ⟨h0, h1, h2, -, h3, h5⟩ := C35_factors A
  have hd : ∀ i, (decomposeLUP A).U i i ≠ 0 := fun i h => hA ((C35_singular A).2 ⟨i, h⟩)
  obtain ⟨x, hx, hx'⟩ := luSolve_correct h1 h2 h3 hd (permuteRows (decomposeLUP A).P b0 b)
  have hx2 : A * x = b := by
    rw [h5, permuteRows_eq] at hx'
    ext i j
    obtain ⟨i', rfl⟩ := h0.2 i
    exact congrFun (congrFun hx' i') j
  exact ⟨x, hx, hx2, fun y hy => cancel_left hA (hy.trans hx2.symm)⟩

/-- C36: LUP, `FOLLOW_VECTOR`. -/
theorem C36_lup_follow (A : Matrix (Fin (n + 1)) (Fin (n + 1)) 𝕜) (hA : A.det ≠ 0) (b0 b : Matrix (Fin m) (Fin (n + 1)) 𝕜) :
    ∃ x, lupSolveFollow (decomposeLUP A) b0 b = some x ∧ x * A = b ∧ ∀ y, y * A = b → y = x := by
  obtain ⟨h0, h1, h2, -, h3, h5⟩ := C35_factors A
  have hd : ∀ i, (decomposeLUP A).U i i ≠ 0 := fun i h => hA ((C35_singular A).2 ⟨i, h⟩)
  obtain ⟨z, hz, hz'⟩ := luSolveFollow_correct h1 h2 h3 hd b
  have hx2 : inversePermuteCols (decomposeLUP A).P b0 z * A = b := by
    rw [← hz', h5]
    ext i j
    rw [Matrix.mul_apply, Matrix.mul_apply]
    rw [← Equiv.sum_comp (Equiv.ofBijective _ h0)]
    apply Finset.sum_congr rfl
    intro q _
    show inversePermuteCols (decomposeLUP A).P b0 z i ((decomposeLUP A).P q) * A ((decomposeLUP A).P q) j = _
    rw [inversePermuteCols_apply _ h0.1]; rfl
  exact ⟨_, by rw [lupSolveFollow, hz]; rfl, hx2, fun y hy => cancel_right hA (hy.trans hx2.symm)⟩

/-- C36: a vector as right-hand side, `PRECEDE_VECTOR`. -/
theorem C36_lup_vector (A : Matrix (Fin (n + 1)) (Fin (n + 1)) 𝕜) (hA : A.det ≠ 0) (b0 : Matrix (Fin (n + 1)) (Fin 1) 𝕜) (b : Fin (n + 1) → 𝕜) :
    ∃ x, solveVec (lupSolve (decomposeLUP A) b0) b = some x ∧ A.mulVec x = b := by
  obtain ⟨x, hx, hx', -⟩ := C36_lup A hA b0 (Matrix.of fun i _ => b i)
  refine ⟨fun i => x i 0, by rw [solveVec, hx]; rfl, ?_⟩
  funext i
  exact congrFun (congrFun hx' i) 0

/-- C36: a vector as right-hand side, `FOLLOW_VECTOR`. -/
theorem C36_lup_vector_follow (A : Matrix (Fin (n + 1)) (Fin (n + 1)) 𝕜) (hA : A.det ≠ 0) (b0 : Matrix (Fin 1) (Fin (n + 1)) 𝕜) (b : Fin (n + 1) → 𝕜) :
    ∃ x, solveVecFollow (lupSolveFollow (decomposeLUP A) b0) b = some x ∧ A.vecMul x = b := by
  obtain ⟨x, hx, hx', -⟩ := C36_lup_follow A hA b0 (Matrix.of fun _ i => b i)
  refine ⟨fun i => x 0 i, by rw [solveVecFollow, hx]; rfl, ?_⟩
  funext i
  exact congrFun (congrFun hx' 0) i

/-- C36: with a singular matrix every `Solve` divides by zero. -/
theorem C36_lup_singular (A : Matrix (Fin (n + 1)) (Fin (n + 1)) 𝕜) (hA : A.det = 0) (b0 b : Matrix (Fin (n + 1)) (Fin m) 𝕜) :
    lupSolve (decomposeLUP A) b0 b = none := by
  obtain ⟨h0, h1, h2, -, h3, h5⟩ := C35_factors A
  obtain ⟨i, hi⟩ := (C35_singular A).1 hA
  obtain ⟨y, hy, -⟩ := solveLower_correct (decomposeLUP A).L (permuteRows (decomposeLUP A).P b0 b) h2 (fun i => by rw [h1]; exact one_ne_zero)
  rw [lupSolve, luSolve, hy, Option.bind_some]
  exact solveUpper_none _ y h3 i hi

/-- C36: `Permute` and `InversePermute` undo each other, for rows and columns. -/
theorem C36_permute (P : Fin n → Fin n) (hP : Function.Bijective P) (b0 b1 b : Matrix (Fin n) (Fin m) K) :
    permuteRows P b0 (inversePermuteRows P b1 b) = b ∧ inversePermuteRows P b1 (permuteRows P b0 b) = b := by
  constructor
  · ext i j; rw [permuteRows_eq]; exact inversePermuteRows_apply P hP.1 b1 b i j
  · ext i j
    obtain ⟨i', rfl⟩ := hP.2 i
    rw [inversePermuteRows_apply P hP.1, permuteRows_eq]; rfl

theorem C36_permute_follow (P : Fin n → Fin n) (hP : Function.Bijective P) (b0 b1 b : Matrix (Fin m) (Fin n) K) :
    permuteCols P b0 (inversePermuteCols P b1 b) = b ∧ inversePermuteCols P b1 (permuteCols P b0 b) = b := by
  constructor
  · ext i j; rw [permuteCols_eq]; exact inversePermuteCols_apply P hP.1 b1 b i j
  · ext i j
    obtain ⟨j', rfl⟩ := hP.2 j
    rw [inversePermuteCols_apply P hP.1, permuteCols_eq]; rfl

example : ((!![0, 1; 1, 0] : Matrix (Fin 2) (Fin 2) ℝ)).det ≠ 0 := by simp
end C36

/-! ## C31 -/
section C31
variable {𝕜 : Type u} [RCLike 𝕜]

/-- C31: `Inverse` of an invertible matrix of any dimension is the two-sided inverse, for `PRECEDE_VECTOR`. -/
theorem C31_inverse (A : Matrix (Fin (n + 1)) (Fin (n + 1)) 𝕜) (hA : A.det ≠ 0) (b0 : Matrix (Fin (n + 1)) (Fin (n + 1)) 𝕜) :
    ∃ x, inverseLUP b0 A = some x ∧ A * x = 1 ∧ x * A = 1 := by
  classical
  obtain ⟨x, hx, hx', -⟩ := C36_lup A hA b0 1
  refine ⟨x, ?_, hx', mul_eq_one_comm.1 hx'⟩
  rw [inverseLUP, ← hx]

/-- C31: `Inverse` for `FOLLOW_VECTOR`. -/
theorem C31_inverse_follow (A : Matrix (Fin (n + 1)) (Fin (n + 1)) 𝕜) (hA : A.det ≠ 0) (b0 : Matrix (Fin (n + 1)) (Fin (n + 1)) 𝕜) :
    ∃ x, inverseLUPFollow b0 A = some x ∧ A * x = 1 ∧ x * A = 1 := by
  classical
  obtain ⟨x, hx, hx', -⟩ := C36_lup_follow A hA b0 1
  refine ⟨x, ?_, mul_eq_one_comm.1 hx', hx'⟩
  rw [inverseLUPFollow, ← hx]

/-- C31: the inverse of a singular matrix divides by zero. -/
theorem C31_singular (A : Matrix (Fin (n + 1)) (Fin (n + 1)) 𝕜) (hA : A.det = 0) (b0 : Matrix (Fin (n + 1)) (Fin (n + 1)) 𝕜) :
    inverseLUP b0 A = none := by
  classical
  have := C36_lup_singular A hA b0 (1 : Matrix (Fin (n + 1)) (Fin (n + 1)) 𝕜)
  rw [inverseLUP, ← this]

example : (1 : Matrix (Fin 6) (Fin 6) ℝ).det ≠ 0 := by simp
end C31

end Mathter.Props
