import Verif.Model.QRorLQ
import Verif.Props.QR

/-!
# Property C143: the decomposition picked by shape and order

`A` ranges over all real or complex matrices of every shape, `o` over both multiplication orders. An outer `none` is a call that does not
compile, an inner `none` a division by zero.
-/

namespace Mathter.Props
open Mathter
universe u
variable {𝕜 : Type u} [RCLike 𝕜] {r n m : ℕ}

private theorem pick_qr (lo hi : ℝ) (h : n + 1 ≤ r + 1) (A : Matrix (Fin (r + 1)) (Fin (n + 1)) 𝕜) :
    decomposeQRorLQ lo hi .precede A = .qr (decomposeQR lo hi h A) := by
  unfold decomposeQRorLQ
  by_cases e : r + 1 = n + 1
  · rw [dif_pos e]
  · rw [dif_neg e, dif_pos (lt_of_le_of_ne h (Ne.symm e))]

private theorem pick_lq (lo hi : ℝ) (h : r + 1 ≤ n + 1) (A : Matrix (Fin (r + 1)) (Fin (n + 1)) 𝕜) :
    decomposeQRorLQ lo hi .follow A = .lq (decomposeLQ lo hi h A) := by
  unfold decomposeQRorLQ
  by_cases e : r + 1 = n + 1
  · rw [dif_pos e]
  · rw [dif_neg e, dif_neg (not_lt.2 h)]

private theorem pick_tall (lo hi : ℝ) (o : Order) (h : n + 1 < r + 1) (A : Matrix (Fin (r + 1)) (Fin (n + 1)) 𝕜) :
    decomposeQRorLQ lo hi o A = .qr (decomposeQR lo hi h.le A) := by
  unfold decomposeQRorLQ
  rw [dif_neg h.ne', dif_pos h]

private theorem pick_wide (lo hi : ℝ) (o : Order) (h : r + 1 < n + 1) (A : Matrix (Fin (r + 1)) (Fin (n + 1)) 𝕜) :
    decomposeQRorLQ lo hi o A = .lq (decomposeLQ lo hi h.le A) := by
  unfold decomposeQRorLQ
  rw [dif_neg h.ne, dif_neg (not_lt.2 h.le)]

/-- C143: matrices of every shape and order are factored: into a `Q` with orthonormal columns and an upper triangular `R` on its right,
or a `Q` with orthonormal rows and a lower triangular `L` on its left. -/
theorem C143_factors (lo hi : ℝ) (hlo : 0 < lo) (hh : lo ≤ hi) (o : Order) (A : Matrix (Fin (r + 1)) (Fin (n + 1)) 𝕜) :
    (∃ d, decomposeQRorLQ lo hi o A = .qr d ∧ d.Q.conjTranspose * d.Q = 1 ∧ (∀ i j, j < i → d.R i j = 0) ∧ d.Q * d.R = A) ∨
    (∃ d, decomposeQRorLQ lo hi o A = .lq d ∧ d.Q * d.Q.conjTranspose = 1 ∧ (∀ i j, i < j → d.L i j = 0) ∧ d.L * d.Q = A) := by
  rcases lt_trichotomy (r + 1) (n + 1) with h | h | h
  · exact .inr ⟨_, pick_wide lo hi o h A, C38_lq lo hi hlo hh h.le A⟩
  · cases o with
    | precede => exact .inl ⟨_, pick_qr lo hi h.ge A, C37_qr lo hi hlo hh h.ge A⟩
    | follow => exact .inr ⟨_, pick_lq lo hi h.le A, C38_lq lo hi hlo hh h.le A⟩
  · exact .inl ⟨_, pick_tall lo hi o h A, C37_qr lo hi hlo hh h.le A⟩

variable [DecidableEq 𝕜]

/-- C143: a matrix that precedes vectors, square or tall and of full column rank: `Solve(b)` compiles and minimises `|Ax - b|`; it is the
solution itself if there is one. -/
theorem C143_solve_precede_partial (lo hi : ℝ) (hlo : 0 < lo) (hh : lo ≤ hi) (hrn : n + 1 ≤ r + 1) (A : Matrix (Fin (r + 1)) (Fin (n + 1)) 𝕜)
    (hA : ∀ y, A.mulVec y = 0 → y = 0) (b : Fin (r + 1) → 𝕜) :
    ∃ x, (decomposeQRorLQ lo hi .precede A).solvePrecede b = some (some x) ∧
      (∀ y, length (A.mulVec x - b) ≤ length (A.mulVec y - b)) ∧ (∀ z, A.mulVec z = b → x = z) := by
  obtain ⟨x, hx, h⟩ := C39_vector lo hi hlo hh hrn A hA b
  refine ⟨x, by rw [pick_qr lo hi hrn A]; exact congrArg some hx, h, fun z hz => ?_⟩
  have h0 := h z
  rw [hz, sub_self, (length_eq_zero (0 : Fin (r + 1) → 𝕜)).2 rfl] at h0
  have h2 := (length_eq_zero _).1 (le_antisymm h0 (length_nonneg _))
  refine sub_eq_zero.1 (hA _ ?_)
  rw [Matrix.mulVec_sub, hz, h2]

/-- C143: a matrix that follows vectors, square or wide and of full row rank: `Solve(b)` compiles and minimises `|xA - b|`; it is the
solution itself if there is one. -/
theorem C143_solve_follow_partial (lo hi : ℝ) (hlo : 0 < lo) (hh : lo ≤ hi) (hrn : r + 1 ≤ n + 1) (A : Matrix (Fin (r + 1)) (Fin (n + 1)) 𝕜)
    (hA : ∀ y, A.vecMul y = 0 → y = 0) (b : Fin (n + 1) → 𝕜) :
    ∃ x, (decomposeQRorLQ lo hi .follow A).solveFollow b = some (some x) ∧
      (∀ y, length (A.vecMul x - b) ≤ length (A.vecMul y - b)) ∧ (∀ z, A.vecMul z = b → x = z) := by
  obtain ⟨x, hx, h⟩ := C39_lq_vector lo hi hlo hh hrn A hA b
  refine ⟨x, by rw [pick_lq lo hi hrn A]; exact congrArg some hx, h, fun z hz => ?_⟩
  have h0 := h z
  rw [hz, sub_self, (length_eq_zero (0 : Fin (n + 1) → 𝕜)).2 rfl] at h0
  have h2 := (length_eq_zero _).1 (le_antisymm h0 (length_nonneg _))
  refine sub_eq_zero.1 (hA _ ?_)
  rw [Matrix.sub_vecMul, hz, h2]

/-- C143: several right-hand sides and an invertible square matrix, in both orders: `AX = B` or `XA = B` is solved, whichever the order
of the matrix stands for. -/
theorem C143_square_many (lo hi : ℝ) (hlo : 0 < lo) (hh : lo ≤ hi) (A : Matrix (Fin (n + 1)) (Fin (n + 1)) 𝕜) (hA : A.det ≠ 0) :
    (∀ B : Matrix (Fin (n + 1)) (Fin m) 𝕜, ∃ X, (decomposeQRorLQ lo hi .precede A).solveManyPrecede B = some (some X) ∧ A * X = B) ∧
    (∀ B : Matrix (Fin m) (Fin (n + 1)) 𝕜, ∃ X, (decomposeQRorLQ lo hi .follow A).solveManyFollow B = some (some X) ∧ X * A = B) := by
  have hu : IsUnit A.det := isUnit_iff_ne_zero.2 hA
  refine ⟨fun B => ⟨A⁻¹ * B, ?_, ?_⟩, fun B => ⟨B * A⁻¹, ?_, ?_⟩⟩
  · have h := C39_exact lo hi hlo hh le_rfl A (fun y hy => Matrix.eq_zero_of_mulVec_eq_zero hA hy) (A⁻¹ * B)
    rw [Matrix.mul_nonsing_inv_cancel_left A B hu] at h
    rw [pick_qr lo hi le_rfl A]
    exact congrArg some h
  · exact Matrix.mul_nonsing_inv_cancel_left A B hu
  · have h := C39_lq_matrix lo hi hlo hh A hA (B * A⁻¹)
    rw [Matrix.nonsing_inv_mul_cancel_right A B hu] at h
    rw [pick_lq lo hi le_rfl A]
    exact congrArg some h
  · exact Matrix.nonsing_inv_mul_cancel_right A B hu

/-- C143: `Inverse()` of a matrix of full rank, of every shape and in either order, is its pseudoinverse: it satisfies the four Penrose
conditions. -/
theorem C143_inverse (lo hi : ℝ) (hlo : 0 < lo) (hh : lo ≤ hi) (o : Order) (A : Matrix (Fin (r + 1)) (Fin (n + 1)) 𝕜)
    (hA : (∀ y, A.mulVec y = 0 → y = 0) ∨ (∀ y, A.vecMul y = 0 → y = 0)) :
    ∃ X, (decomposeQRorLQ lo hi o A).inverse = some X ∧
      A * X * A = A ∧ X * A * X = X ∧ (A * X).conjTranspose = A * X ∧ (X * A).conjTranspose = X * A := by
  have tall : ∀ {a b : ℕ} (B : Matrix (Fin a) (Fin b) 𝕜), (∀ y, B.mulVec y = 0 → y = 0) → b ≤ a := by
    intro a b B hB
    have h := LinearMap.finrank_le_finrank_of_injective (f := B.mulVecLin)
      ((injective_iff_map_eq_zero _).2 fun y hy => hB y (by simpa using hy))
    simpa using h
  have square : ∀ {a : ℕ} (B : Matrix (Fin a) (Fin a) 𝕜), (∀ y, B.mulVec y = 0 → y = 0) ↔ (∀ y, B.vecMul y = 0 → y = 0) := by
    intro a B
    constructor <;> intro hB y hy
    · refine Matrix.eq_zero_of_vecMul_eq_zero (fun h0 => ?_) hy
      obtain ⟨v, hv, h⟩ := Matrix.exists_mulVec_eq_zero_iff.2 h0
      exact hv (hB v h)
    · refine Matrix.eq_zero_of_mulVec_eq_zero (fun h0 => ?_) hy
      obtain ⟨v, hv, h⟩ := Matrix.exists_vecMul_eq_zero_iff.2 h0
      exact hv (hB v h)
  have viaQR : ∀ (h : n + 1 ≤ r + 1), decomposeQRorLQ lo hi o A = .qr (decomposeQR lo hi h A) → (∀ y, A.mulVec y = 0 → y = 0) →
      ∃ X, (decomposeQRorLQ lo hi o A).inverse = some X ∧
        A * X * A = A ∧ X * A * X = X ∧ (A * X).conjTranspose = A * X ∧ (X * A).conjTranspose = X * A := by
    intro h e hc
    obtain ⟨X, hX, -, h4⟩ := C39_pseudoinverse lo hi hlo hh h A hc
    exact ⟨X, by rw [e]; exact hX, h4⟩
  have viaLQ : ∀ (h : r + 1 ≤ n + 1), decomposeQRorLQ lo hi o A = .lq (decomposeLQ lo hi h A) → (∀ y, A.vecMul y = 0 → y = 0) →
      ∃ X, (decomposeQRorLQ lo hi o A).inverse = some X ∧
        A * X * A = A ∧ X * A * X = X ∧ (A * X).conjTranspose = A * X ∧ (X * A).conjTranspose = X * A := by
    intro h e hc
    obtain ⟨X, hX, -, h4⟩ := C39_lq_pseudoinverse lo hi hlo hh h A hc
    exact ⟨X, by rw [e]; exact hX, h4⟩
  rcases lt_trichotomy (r + 1) (n + 1) with h | h | h
  · refine viaLQ h.le (pick_wide lo hi o h A) (hA.resolve_left fun hc => ?_)
    exact absurd (tall A hc) (not_le.2 h)
  · obtain rfl : r = n := by omega
    cases o with
    | precede => exact viaQR le_rfl (pick_qr lo hi le_rfl A) (hA.elim id (square A).2)
    | follow => exact viaLQ le_rfl (pick_lq lo hi le_rfl A) (hA.elim (square A).1 id)
  · refine viaQR h.le (pick_tall lo hi o h A) (hA.resolve_right fun hc => ?_)
    exact absurd (tall A.transpose fun y hy => hc y (by rwa [Matrix.mulVec_transpose] at hy)) (not_le.2 h)

/-- C143: an underdetermined system in the order of the matrix (a wide matrix that precedes vectors, a tall one that follows them) cannot
be solved: `Solve` of what `DecomposeQRorLQ` picks does not compile. -/
theorem C143_underdetermined (lo hi : ℝ) (A : Matrix (Fin (r + 1)) (Fin (n + 1)) 𝕜) :
    (r < n → ∀ b, (decomposeQRorLQ lo hi .precede A).solvePrecede b = none) ∧
    (n < r → ∀ b, (decomposeQRorLQ lo hi .follow A).solveFollow b = none) :=
  ⟨fun h b => by rw [pick_wide lo hi .precede (by omega) A]; rfl, fun h b => by rw [pick_tall lo hi .follow (by omega) A]; rfl⟩

/-- C143: the error message of `DecompositionQR::Solve` (DecomposeQR.hpp:64-66) sends users of matrices that follow vectors to
`DecomposeQRorLQ`. For a tall matrix that does not help, although the system has solutions: `x (1 1)ᵀ = 2` has `x = (1 1)`, and the
pseudoinverse that `Inverse()` returns solves it, but `Solve` is rejected. -/
theorem C143_advice_violated (lo hi : ℝ) (hlo : 0 < lo) (hh : lo ≤ hi) :
    ∃ (A : Matrix (Fin 2) (Fin 1) ℝ) (b : Fin 1 → ℝ), (∃ x, A.vecMul x = b) ∧
      (decomposeQRorLQ lo hi .follow A).solveFollow b = none ∧
      ∃ X, (decomposeQRorLQ lo hi .follow A).inverse = some X ∧ A.vecMul (X.vecMul b) = b := by
  have hA : ∀ y, (!![1; 1] : Matrix (Fin 2) (Fin 1) ℝ).mulVec y = 0 → y = 0 := by
    intro y h
    have := congrFun h 0
    funext i
    fin_cases i
    simpa [Matrix.mulVec, dotProduct] using this
  refine ⟨!![1; 1], ![2], ⟨![1, 1], ?_⟩, (C143_underdetermined lo hi _).2 (by norm_num) _, ?_⟩
  · funext i
    fin_cases i
    simp [Matrix.vecMul, dotProduct, Fin.sum_univ_two]
    norm_num
  · obtain ⟨X, hX, hl, -⟩ := C39_pseudoinverse lo hi hlo hh (by norm_num : 0 + 1 ≤ 1 + 1) (!![1; 1] : Matrix (Fin 2) (Fin 1) ℝ) hA
    refine ⟨X, by rw [pick_tall lo hi .follow (by norm_num : 0 + 1 < 1 + 1) _]; exact hX, ?_⟩
    rw [Matrix.vecMul_vecMul, hl, Matrix.vecMul_one]

/-- A full-rank matrix of each kind. -/
example : (∀ y, (!![1; 2] : Matrix (Fin 2) (Fin 1) ℝ).mulVec y = 0 → y = 0) ∧ (!![1, 2; 3, 4] : Matrix (Fin 2) (Fin 2) ℝ).det ≠ 0 ∧
    (∀ y, (!![1, 2] : Matrix (Fin 1) (Fin 2) ℝ).vecMul y = 0 → y = 0) := by
  refine ⟨fun y h => ?_, by rw [Matrix.det_fin_two_of]; norm_num, fun y h => ?_⟩
  · have := congrFun h 0
    funext i
    fin_cases i
    simpa [Matrix.mulVec, dotProduct] using this
  · have := congrFun h 0
    funext i
    fin_cases i
    simpa [Matrix.vecMul, dotProduct] using this

end Mathter.Props
