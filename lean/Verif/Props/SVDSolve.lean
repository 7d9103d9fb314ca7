import Verif.Props.SVDOneSided
import Verif.Props.QR

/-!
# Solving and inverting with the SVD (C43)

The specification of a thin SVD and of the Moore-Penrose inverse, then what `Solve` and `Inverse` make of a decomposition that meets the former.
-/

namespace Mathter.Props
open Mathter
universe u
variable {𝕜 : Type u} [RCLike 𝕜] {r n k m : ℕ}

/-- A thin singular value decomposition of `A` with nonzero singular values. -/
structure IsThinSVD (A : Matrix (Fin r) (Fin n) 𝕜) (d : SVD 𝕜 r k n) : Prop where
  left : d.U.conjTranspose * d.U = 1
  right : d.V * d.V.conjTranspose = 1
  eq : d.U * Matrix.diagonal (fun i => ((d.S i : ℝ) : 𝕜)) * d.V = A
  ne : ∀ i, d.S i ≠ 0

/-- The four Penrose equations. -/
structure IsPseudoinverse (A : Matrix (Fin r) (Fin n) 𝕜) (P : Matrix (Fin n) (Fin r) 𝕜) : Prop where
  one : A * P * A = A
  two : P * A * P = P
  three : (A * P).conjTranspose = A * P
  four : (P * A).conjTranspose = P * A

/-- A loop that scales line `i` in step `i`, and fails if the divisor is zero. -/
private theorem divLoop_rows (S : Fin k → ℝ) (hS : ∀ i, S i ≠ 0) (X : Matrix (Fin k) (Fin m) 𝕜) :
    (forUp k 0 (fun row (X : Option (Matrix (Fin k) (Fin m) 𝕜)) => X.bind fun X =>
      open Classical in
      if h : row.val < k then
        if S ⟨row, h⟩ = 0 then none else some (Matrix.of fun i j => if i.val = row.val then X ⟨row, h⟩ j / (S ⟨row, h⟩ : 𝕜) else X i j)
      else none) (some X)) = some (Matrix.diagonal (fun i => ((S i : ℝ) : 𝕜)⁻¹) * X) := by
  have := forUp_inv (n := k) (lo := 0) (body := fun row (X : Option (Matrix (Fin k) (Fin m) 𝕜)) => X.bind fun X =>
      open Classical in
      if h : row.val < k then
        if S ⟨row, h⟩ = 0 then none else some (Matrix.of fun i j => if i.val = row.val then X ⟨row, h⟩ j / (S ⟨row, h⟩ : 𝕜) else X i j)
      else none) (s := some X)
    (fun t st => st = some (Matrix.of fun i j => if i.val < t then X i j / (S i : 𝕜) else X i j)) (Nat.zero_le _)
    (by simp only [Nat.not_lt_zero, if_false]; rfl)
    (by
      intro i st _ hst
      rw [hst]
      simp only [Option.bind_some, dif_pos i.isLt, Fin.eta, if_neg (hS i), Option.some.injEq]
      ext a j
      simp only [Matrix.of_apply, lt_irrefl, if_false]
      by_cases ha : a.val = i.val
      · have ha' : a = i := Fin.ext ha
        subst ha'
        simp
      · rw [if_neg ha]
        by_cases hb : a.val < i.val
        · rw [if_pos hb, if_pos (by omega)]
        · rw [if_neg hb, if_neg (by omega)])
  rw [this]
  congr 1
  ext i j
  rw [Matrix.diagonal_mul, Matrix.of_apply, if_pos i.isLt, div_eq_inv_mul]

private theorem divLoop_cols (S : Fin k → ℝ) (hS : ∀ i, S i ≠ 0) (X : Matrix (Fin m) (Fin k) 𝕜) :
    (forUp k 0 (fun col (X : Option (Matrix (Fin m) (Fin k) 𝕜)) => X.bind fun X =>
      open Classical in
      if h : col.val < k then
        if S ⟨col, h⟩ = 0 then none else some (Matrix.of fun i j => if j.val = col.val then X i ⟨col, h⟩ / (S ⟨col, h⟩ : 𝕜) else X i j)
      else none) (some X)) = some (X * Matrix.diagonal (fun i => ((S i : ℝ) : 𝕜)⁻¹)) := by
  have := forUp_inv (n := k) (lo := 0) (body := fun col (X : Option (Matrix (Fin m) (Fin k) 𝕜)) => X.bind fun X =>
      open Classical in
      if h : col.val < k then
        if S ⟨col, h⟩ = 0 then none else some (Matrix.of fun i j => if j.val = col.val then X i ⟨col, h⟩ / (S ⟨col, h⟩ : 𝕜) else X i j)
      else none) (s := some X)
    (fun t st => st = some (Matrix.of fun i j => if j.val < t then X i j / (S j : 𝕜) else X i j)) (Nat.zero_le _)
    (by simp only [Nat.not_lt_zero, if_false]; rfl)
    (by
      intro i st _ hst
      rw [hst]
      simp only [Option.bind_some, dif_pos i.isLt, Fin.eta, if_neg (hS i), Option.some.injEq]
      ext j a
      simp only [Matrix.of_apply, lt_irrefl, if_false]
      by_cases ha : a.val = i.val
      · have ha' : a = i := Fin.ext ha
        subst ha'
        simp
      · rw [if_neg ha]
        by_cases hb : a.val < i.val
        · rw [if_pos hb, if_pos (by omega)]
        · rw [if_neg hb, if_neg (by omega)])
  rw [this]
  congr 1
  ext i j
  rw [Matrix.mul_diagonal, Matrix.of_apply, if_pos j.isLt, div_eq_mul_inv]

/-- A loop over an option that fails in some step fails. -/
private theorem bindLoop_none {β : Type*} {N : ℕ} (f : Fin N → β → Option β) (s : Option β) (i : Fin N) (h : ∀ x, f i x = none) :
    forUp N 0 (fun i st => st.bind (f i)) s = none := by
  have := forUp_inv (n := N) (lo := 0) (body := fun i (st : Option β) => st.bind (f i)) (s := s)
    (fun t st => i.val < t → st = none) (Nat.zero_le _) (fun h => absurd h (Nat.not_lt_zero _))
    (by
      intro a st _ hst hlt
      by_cases ha : i.val < a.val
      · rw [hst ha]; rfl
      · have : i = a := Fin.ext (by omega)
        subst this
        cases st with
        | none => rfl
        | some x => exact h x)
  exact this i.isLt

private theorem inverse_eq (d : SVD 𝕜 r k n) (hS : ∀ i, d.S i ≠ 0) :
    svdInverse d = some (d.V.conjTranspose * Matrix.diagonal (fun i => ((d.S i : ℝ) : 𝕜)⁻¹) * d.U.conjTranspose) := by
  unfold svdInverse
  simp only
  have := divLoop_cols d.S hS d.V.conjTranspose
  have e : (forUp k 0 (fun i (Xi : Option (Matrix (Fin n) (Fin k) 𝕜)) => Xi.bind fun Xi =>
      open Classical in
      if d.S i = 0 then none else some (Matrix.of fun a j => if j = i then Xi a i / (d.S i : 𝕜) else Xi a j)) (some d.V.conjTranspose)) =
      some (d.V.conjTranspose * Matrix.diagonal (fun i => ((d.S i : ℝ) : 𝕜)⁻¹)) := by
    rw [← this]
    apply forUp_congr
    intro i st
    cases st with
    | none => rfl
    | some x => simp only [Option.bind_some, dif_pos i.isLt, Fin.eta, Fin.ext_iff]
  rw [e]; rfl

private theorem solvePrecede_eq (d : SVD 𝕜 r n n) (hS : ∀ i, d.S i ≠ 0) (b : Matrix (Fin r) (Fin m) 𝕜) :
    svdSolvePrecede d b = some (d.V.conjTranspose * (Matrix.diagonal (fun i => ((d.S i : ℝ) : 𝕜)⁻¹) * (d.U.conjTranspose * b))) := by
  unfold svdSolvePrecede
  simp only
  rw [divLoop_rows d.S hS]; rfl

private theorem solveFollow_eq (d : SVD 𝕜 r r n) (hS : ∀ i, d.S i ≠ 0) (b : Matrix (Fin m) (Fin n) 𝕜) :
    svdSolveFollow d b = some (b * d.V.conjTranspose * Matrix.diagonal (fun i => ((d.S i : ℝ) : 𝕜)⁻¹) * d.U.conjTranspose) := by
  unfold svdSolveFollow
  simp only
  rw [divLoop_cols d.S hS]; rfl

private theorem diag_inv (S : Fin k → ℝ) (hS : ∀ i, S i ≠ 0) :
    Matrix.diagonal (fun i => ((S i : ℝ) : 𝕜)) * Matrix.diagonal (fun i => ((S i : ℝ) : 𝕜)⁻¹) = 1 ∧
    Matrix.diagonal (fun i => ((S i : ℝ) : 𝕜)⁻¹) * Matrix.diagonal (fun i => ((S i : ℝ) : 𝕜)) = 1 := by
  rw [Matrix.diagonal_mul_diagonal, Matrix.diagonal_mul_diagonal, ← Matrix.diagonal_one]
  constructor <;> congr 1 <;> funext i
  · exact mul_inv_cancel₀ (by exact_mod_cast hS i)
  · exact inv_mul_cancel₀ (by exact_mod_cast hS i)

private theorem products {A : Matrix (Fin r) (Fin n) 𝕜} {d : SVD 𝕜 r k n} (h : IsThinSVD A d) :
    A * (d.V.conjTranspose * Matrix.diagonal (fun i => ((d.S i : ℝ) : 𝕜)⁻¹) * d.U.conjTranspose) = d.U * d.U.conjTranspose ∧
    (d.V.conjTranspose * Matrix.diagonal (fun i => ((d.S i : ℝ) : 𝕜)⁻¹) * d.U.conjTranspose) * A = d.V.conjTranspose * d.V := by
  obtain ⟨h1, h2, h3, h4⟩ := h
  obtain ⟨e1, e2⟩ := diag_inv (𝕜 := 𝕜) d.S h4
  generalize Matrix.diagonal (fun i => ((d.S i : ℝ) : 𝕜)) = D at *
  generalize Matrix.diagonal (fun i => ((d.S i : ℝ) : 𝕜)⁻¹) = D' at *
  constructor
  · calc A * (d.V.conjTranspose * D' * d.U.conjTranspose) = d.U * (D * ((d.V * d.V.conjTranspose) * D')) * d.U.conjTranspose := by
          rw [← h3]; simp only [Matrix.mul_assoc]
      _ = d.U * d.U.conjTranspose := by rw [h2, Matrix.one_mul, e1, Matrix.mul_one]
  · calc (d.V.conjTranspose * D' * d.U.conjTranspose) * A = d.V.conjTranspose * (D' * ((d.U.conjTranspose * d.U) * D)) * d.V := by
          rw [← h3]; simp only [Matrix.mul_assoc]
      _ = d.V.conjTranspose * d.V := by rw [h1, Matrix.one_mul, e2, Matrix.mul_one]

/-- C43: `Inverse` is the pseudoinverse, for matrices of every shape. -/
theorem C43_pseudoinverse (A : Matrix (Fin r) (Fin n) 𝕜) (d : SVD 𝕜 r k n) (h : IsThinSVD A d) :
    ∃ P, svdInverse d = some P ∧ IsPseudoinverse A P := by
  refine ⟨_, inverse_eq d h.ne, ?_⟩
  obtain ⟨p1, p2⟩ := products h
  refine ⟨?_, ?_, ?_, ?_⟩
  · rw [p1, ← h.eq]
    calc d.U * d.U.conjTranspose * (d.U * Matrix.diagonal (fun i => ((d.S i : ℝ) : 𝕜)) * d.V)
        = d.U * ((d.U.conjTranspose * d.U) * (Matrix.diagonal (fun i => ((d.S i : ℝ) : 𝕜)) * d.V)) := by simp only [Matrix.mul_assoc]
      _ = _ := by rw [h.left, Matrix.one_mul, Matrix.mul_assoc]
  · rw [p2]
    calc d.V.conjTranspose * d.V * (d.V.conjTranspose * Matrix.diagonal (fun i => ((d.S i : ℝ) : 𝕜)⁻¹) * d.U.conjTranspose)
        = d.V.conjTranspose * ((d.V * d.V.conjTranspose) * (Matrix.diagonal (fun i => ((d.S i : ℝ) : 𝕜)⁻¹) * d.U.conjTranspose)) := by
          simp only [Matrix.mul_assoc]
      _ = _ := by rw [h.right, Matrix.one_mul, Matrix.mul_assoc]
  · rw [p1, Matrix.conjTranspose_mul, Matrix.conjTranspose_conjTranspose]
  · rw [p2, Matrix.conjTranspose_mul, Matrix.conjTranspose_conjTranspose]

/-- C43: for a square matrix `Inverse` is the inverse. -/
theorem C43_inverse (A : Matrix (Fin n) (Fin n) 𝕜) (d : SVD 𝕜 n n n) (h : IsThinSVD A d) :
    ∃ P, svdInverse d = some P ∧ A * P = 1 ∧ P * A = 1 := by
  refine ⟨_, inverse_eq d h.ne, ?_⟩
  obtain ⟨p1, p2⟩ := products h
  have : d.U * d.U.conjTranspose = 1 := mul_eq_one_comm.1 h.left
  exact ⟨p1.trans this, p2.trans (mul_eq_one_comm.1 h.right)⟩

/-- C43: `PRECEDE_VECTOR`, at least as many rows as columns: `Solve` returns the solution of least squares, column by column. -/
theorem C43_solve_precede_partial (A : Matrix (Fin r) (Fin n) 𝕜) (d : SVD 𝕜 r n n) (h : IsThinSVD A d) (b : Matrix (Fin r) (Fin m) 𝕜) :
    ∃ x, svdSolvePrecede d b = some x ∧
      (∀ j y, length (A.mulVec (fun i => x i j) - fun i => b i j) ≤ length (A.mulVec y - fun i => b i j)) ∧
      ∀ z, A * z = b → x = z := by
  refine ⟨_, solvePrecede_eq d h.ne b, ?_, ?_⟩
  · intro j y
    apply optimal_of_normal
    obtain ⟨p1, p2⟩ := products h
    have hn : A.conjTranspose * (A * (d.V.conjTranspose * (Matrix.diagonal (fun i => ((d.S i : ℝ) : 𝕜)⁻¹) * (d.U.conjTranspose * b))) - b) = 0 := by
      have e : A * (d.V.conjTranspose * (Matrix.diagonal (fun i => ((d.S i : ℝ) : 𝕜)⁻¹) * (d.U.conjTranspose * b))) = d.U * d.U.conjTranspose * b := by
        rw [← p1]; simp only [Matrix.mul_assoc]
      have e2 : A.conjTranspose * (d.U * d.U.conjTranspose) = A.conjTranspose := by
        have h3 := congrArg Matrix.conjTranspose h.eq
        rw [Matrix.conjTranspose_mul, Matrix.conjTranspose_mul] at h3
        rw [← h3]
        simp only [Matrix.mul_assoc]
        rw [← Matrix.mul_assoc d.U.conjTranspose d.U, h.left, Matrix.one_mul]
      rw [Matrix.mul_sub, e, ← Matrix.mul_assoc, e2, sub_self]
    funext i
    exact congrFun (congrFun hn i) j
  · intro z hz
    obtain ⟨_, p2⟩ := products h
    have hV : d.V.conjTranspose * d.V = 1 := mul_eq_one_comm.1 h.right
    rw [← hz]
    calc _ = (d.V.conjTranspose * Matrix.diagonal (fun i => ((d.S i : ℝ) : 𝕜)⁻¹) * d.U.conjTranspose) * A * z := by simp only [Matrix.mul_assoc]
      _ = z := by rw [p2, hV, Matrix.one_mul]

/-- C43: `FOLLOW_VECTOR`, at least as many columns as rows: `Solve` returns the solution of least squares of `x * A = b`, row by row. -/
theorem C43_solve_follow_partial (A : Matrix (Fin r) (Fin n) 𝕜) (d : SVD 𝕜 r r n) (h : IsThinSVD A d) (b : Matrix (Fin m) (Fin n) 𝕜) :
    ∃ x, svdSolveFollow d b = some x ∧
      (∀ i y, length (Matrix.vecMul (x i) A - b i) ≤ length (Matrix.vecMul y A - b i)) ∧
      ∀ z, z * A = b → x = z := by
  have hT : IsThinSVD A.transpose (svdFlip d) := by
    obtain ⟨w1, w2, w3⟩ := C40_wide A.transpose d
    exact ⟨w2 h.right, w1 h.left, w3 (by rw [Matrix.transpose_transpose]; exact h.eq), h.ne⟩
  obtain ⟨x, hx, h1, h2⟩ := C43_solve_precede_partial A.transpose (svdFlip d) hT b.transpose
  rw [solvePrecede_eq (svdFlip d) h.ne] at hx
  have hx' := Option.some.inj hx
  refine ⟨x.transpose, ?_, ?_, ?_⟩
  · rw [solveFollow_eq d h.ne, ← hx']
    congr 1
    simp only [svdFlip, Matrix.transpose_mul, Matrix.diagonal_transpose, Matrix.transpose_transpose]
    rfl
  · intro i y
    have := h1 i y
    rw [Matrix.mulVec_transpose, Matrix.mulVec_transpose] at this
    exact this
  · intro z hz
    have := h2 z.transpose (by rw [← Matrix.transpose_mul, hz])
    rw [this, Matrix.transpose_transpose]

/-- C43 is violated for underdetermined systems, `PRECEDE_VECTOR`: with more columns than rows, the loop of `Solve` reads rows that do not exist. -/
theorem C43_solve_precede_violated (d : SVD 𝕜 r k n) (hkn : k < n) (b : Matrix (Fin r) (Fin m) 𝕜) : svdSolvePrecede d b = none := by
  unfold svdSolvePrecede
  simp only
  rw [bindLoop_none _ _ ⟨k, hkn⟩]
  · rfl
  · intro x; rw [dif_neg (lt_irrefl _)]

/-- C43 is violated for `FOLLOW_VECTOR` with more rows than columns: the loop of `Solve` reads columns that do not exist. -/
theorem C43_solve_follow_violated (d : SVD 𝕜 r k n) (hkr : k < r) (b : Matrix (Fin m) (Fin n) 𝕜) : svdSolveFollow d b = none := by
  unfold svdSolveFollow
  simp only
  rw [bindLoop_none _ _ ⟨k, hkr⟩]
  · rfl
  · intro x; rw [dif_neg (lt_irrefl _)]

/-- C43: a zero singular value is a division by zero everywhere: no rank-deficient matrix has a pseudoinverse or a solution here. -/
theorem C43_deficient_violated (d : SVD 𝕜 r k n) (i : Fin k) (h : d.S i = 0) :
    svdInverse d = none ∧ (k ≤ n → ∀ b : Matrix (Fin r) (Fin m) 𝕜, svdSolvePrecede d b = none) ∧
    (k ≤ r → ∀ b : Matrix (Fin m) (Fin n) 𝕜, svdSolveFollow d b = none) := by
  refine ⟨?_, fun hk b => ?_, fun hk b => ?_⟩
  · unfold svdInverse
    simp only
    rw [bindLoop_none _ _ i]
    · rfl
    · intro x; rw [if_pos h]
  · unfold svdSolvePrecede
    simp only
    rw [bindLoop_none _ _ ⟨i, lt_of_lt_of_le i.isLt hk⟩]
    · rfl
    · intro x; rw [dif_pos i.isLt, if_pos h]
  · unfold svdSolveFollow
    simp only
    rw [bindLoop_none _ _ ⟨i, lt_of_lt_of_le i.isLt hk⟩]
    · rfl
    · intro x; rw [dif_pos i.isLt, if_pos h]

/-- C43, the whole way: decompose a real matrix with independent columns by the one-sided algorithm, end with a quiet sweep, and `Solve` finds the
least squares solution, `Inverse` the pseudoinverse. -/
theorem C43_one_sided (lo hi eps big big' : ℝ) (hlo : 0 < lo) (hh : lo ≤ hi) (heps : 0 < eps) (hbig : big' < big)
    (negS : ℕ → Fin (n + 1) → Fin (n + 1) → Bool) (neg : Fin (n + 1) → Bool)
    (σ : Equiv.Perm (Fin (n + 1))) (hrn : n + 1 ≤ r + 1) (fuel : ℕ) (A : Matrix (Fin (r + 1)) (Fin (n + 1)) ℝ) (d : SVD ℝ (r + 1) (n + 1) (n + 1))
    (h : svdOneSided lo hi eps big big' negS neg σ hrn fuel A = some d)
    (hσ : ∀ x, jacobiLoop (oneSweep negS) fuel 0 big big' (oneInit A (matScaleElements A)) = some x → SortsColumns x.1.X σ)
    (hend : (jacobiLoop (oneSweep negS) fuel 0 big big' (oneInit A (matScaleElements A))).map Prod.snd = some 0)
    (hA : ∀ y, A.mulVec y = 0 → y = 0) (b : Matrix (Fin (r + 1)) (Fin m) ℝ) :
    (∃ x, svdSolvePrecede d b = some x ∧
      ∀ j y, length (A.mulVec (fun i => x i j) - fun i => b i j) ≤ length (A.mulVec y - fun i => b i j)) ∧
    ∃ P, svdInverse d = some P ∧ IsPseudoinverse A P ∧ P * A = 1 := by
  obtain ⟨v1, v2, hS⟩ := C40_one_sided lo hi eps big big' negS neg σ hrn fuel A d h
  obtain ⟨u1, u2⟩ := C40_one_sided_real_partial lo hi eps big big' hlo hh heps hbig negS neg σ hrn fuel A d h hσ hend
  have hne : ∀ i, d.S i ≠ 0 := by
    intro i hz
    have h1 := hS i
    rw [hz, abs_zero] at h1
    have h2 := hA _ ((length_eq_zero _).1 h1.symm)
    have h3 := congrFun (congrFun v2 i) i
    rw [Matrix.mul_apply, Matrix.one_apply_eq, Finset.sum_eq_zero] at h3
    · exact zero_ne_one h3
    · intro j _
      rw [Matrix.conjTranspose_apply, congrFun h2 j]; simp
  have hsvd : IsThinSVD A d := ⟨u1, v2, u2, hne⟩
  refine ⟨?_, ?_⟩
  · obtain ⟨x, hx, h1, _⟩ := C43_solve_precede_partial A d hsvd b
    exact ⟨x, hx, h1⟩
  · obtain ⟨P, hP, h1⟩ := C43_pseudoinverse A d hsvd
    refine ⟨P, hP, h1, ?_⟩
    rw [inverse_eq d hne] at hP
    rw [← Option.some.inj hP]
    exact (products hsvd).2.trans v1

/-! ## The hypotheses can be met -/

/-- A thin decomposition of a matrix with three rows and two columns that is not diagonal. -/
example : IsThinSVD (!![0, 2; 3, 0; 0, 0] : Matrix (Fin 3) (Fin 2) ℝ) ⟨!![0, 1; 1, 0; 0, 0], ![3, 2], 1⟩ := by
  refine ⟨?_, ?_, ?_, ?_⟩
  · ext i j; fin_cases i <;> fin_cases j <;> simp [Matrix.mul_apply, Fin.sum_univ_three]
  · simp
  · ext i j
    rw [Matrix.mul_one, Matrix.mul_diagonal]
    fin_cases i <;> fin_cases j <;> simp
  · intro i; fin_cases i <;> norm_num

/-- A matrix with independent columns that are not orthogonal has a decomposition as in `C43_one_sided`. -/
example (negS neg) (b : Matrix (Fin 3) (Fin 1) ℝ) : ∃ σ d x, svdOneSided 1 2 (1 / 4) 16 15 negS neg σ (by norm_num) 4 !![1, 2; 3, 4; 5, 6] = some d ∧
    svdSolvePrecede d b = some x := by
  have hA : (!![1, 2; 3, 4; 5, 6] : Matrix (Fin 3) (Fin 2) ℝ) ≠ 0 := by intro h; simpa using congrFun (congrFun h 0) 0
  obtain ⟨_, hend⟩ := C40_two_columns (r := 2) 1 2 (1 / 4) 16 15 (by norm_num) (by norm_num) negS neg 1 (by norm_num) 0 _ hA
  rw [Option.map_eq_some_iff] at hend
  obtain ⟨x, hx, hx0⟩ := hend
  obtain ⟨σ, hσ⟩ := C42_sort_exists x.1.X
  obtain ⟨⟨d, hd⟩, hend⟩ := C40_two_columns (r := 2) 1 2 (1 / 4) 16 15 (by norm_num) (by norm_num) negS neg σ (by norm_num) 0 _ hA
  obtain ⟨⟨y, hy, _⟩, _⟩ := C43_one_sided 1 2 (1 / 4) 16 15 one_pos (by norm_num) (by norm_num) (by norm_num) negS neg σ (by norm_num) 4 _ d hd
    (by intro y hy; rw [hx] at hy; cases hy; exact hσ) hend
    (by
      intro y hy
      have h0 := congrFun hy 0
      have h1 := congrFun hy 1
      simp [Matrix.mulVec, dotProduct, Fin.sum_univ_two] at h0 h1
      funext i
      fin_cases i
      · simp; linarith
      · simp; linarith) b
  exact ⟨σ, d, y, hd, hy⟩

end Mathter.Props
