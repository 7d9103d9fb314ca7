import Verif.Lemmas.RoundedSVDSolve
import Verif.Props.RoundedSVDTwo
import Verif.Props.RoundedLinear

/-!
# C136: solving and inverting with a computed singular value decomposition

`ε` bounds how far the computed `U` and `V` are from matrices with orthonormal columns, `η` how far their product is from the matrix; `C106` gives both for
the two-sided Jacobi algorithm. What `Solve` and `Inverse` add is a modest multiple of the unit roundoff.
-/

namespace Mathter.Props
open Mathter
variable {r n m : ℕ} {fl : ℝ → ℝ} {u ε η : ℝ}

/-- A computed decomposition: nearly orthonormal factors whose product is nearly the matrix. -/
structure IsNearSVD (ε η : ℝ) (A : Matrix (Fin r) (Fin n) ℝ) {k : ℕ} (d : SVD ℝ r k n) : Prop where
  left : ∃ P : Matrix (Fin r) (Fin k) ℝ, P.transpose * P = 1 ∧ frob (d.U - P) ≤ ε
  right : ∃ W : Matrix (Fin k) (Fin n) ℝ, W * W.transpose = 1 ∧ frob (d.V - W) ≤ ε
  eq : frob (d.U * Matrix.diagonal d.S * d.V - A) ≤ η * frob A

/-- The error of solving with such a decomposition of a matrix with `a` rows and `b` columns: `ε` and about `a √b` rounding errors. -/
noncomputable def svdSolveErr (u ε : ℝ) (a b : ℕ) : ℝ := ε + Real.sqrt b * ((1 + u) ^ a - 1)

private theorem frob_col (x : Fin n → ℝ) : frob (Matrix.of fun i (_ : Fin 1) => x i) = norm2 x := by
  unfold frob norm2
  simp

private theorem pow_mono (hu : 0 ≤ u) {a b : ℕ} (hab : a ≤ b) : (1 + u) ^ a - 1 ≤ (1 + u) ^ b - 1 := by
  have := pow_le_pow_right₀ (by linarith : (1 : ℝ) ≤ 1 + u) hab
  linarith

private theorem u_le (hu : 0 ≤ u) {b : ℕ} (hb : 1 ≤ b) : u ≤ (1 + u) ^ b - 1 := by
  have := pow_mono hu hb
  rw [pow_one] at this
  linarith

/-- The steps of `Solve`, for one right-hand side. -/
private theorem steps (h : Rounding fl u) (hrn : n ≤ r) {A : Matrix (Fin r) (Fin n) ℝ} {d : SVD ℝ r n n} (hd : IsNearSVD ε η A d)
    (hS : ∀ i, d.S i ≠ 0) {mul1 : Matrix (Fin n) (Fin r) ℝ → Matrix (Fin r) (Fin m) ℝ → Matrix (Fin n) (Fin m) ℝ} (h1 : Fl.IsProduct u mul1)
    {mul2 : Matrix (Fin n) (Fin n) ℝ → Matrix (Fin n) (Fin m) ℝ → Matrix (Fin n) (Fin m) ℝ} (h2 : Fl.IsProduct u mul2) (b : Matrix (Fin r) (Fin m) ℝ) :
    ∃ x, Fl.svdSolvePrecede fl mul1 mul2 d b = some x ∧ ∀ j, ∃ P W C Y, Fl.SolveSteps u ((1 + u) ^ r - 1) ε η A d.U P d.S d.V W
      (Matrix.of fun i (_ : Fin 1) => b i j) C Y (Matrix.of fun i (_ : Fin 1) => x i j) := by
  obtain ⟨⟨P, hP, hU⟩, ⟨W, hW, hV⟩, hA⟩ := hd
  refine ⟨mul2 d.V.transpose (Matrix.of fun i j => fl (mul1 d.U.transpose b i j / d.S i)), ?_, fun j => ?_⟩
  · unfold Fl.svdSolvePrecede
    simp only
    rw [Fl.divLoop_rows fl d.S hS]
    rfl
  refine ⟨P, W, Matrix.of fun i _ => mul1 d.U.transpose b i j, Matrix.of fun i _ => fl (mul1 d.U.transpose b i j / d.S i), hP, hU,
    mul_eq_one_comm.1 hW, hV, hA, hS, ?_, ?_, ?_⟩
  · intro i _
    exact h1 d.U.transpose b i j
  · intro i _
    exact h.err _
  · intro i _
    refine (h2 d.V.transpose _ i j).trans (mul_le_mul_of_nonneg_right (pow_mono h.u_nonneg hrn) ?_)
    exact Finset.sum_nonneg fun _ _ => abs_nonneg _

/-- C136, `PRECEDE_VECTOR`, at least as many rows as columns: no vector solves the system noticeably better than the computed one, in each column. -/
theorem C136_solve_precede (h : Rounding fl u) (hn : 1 ≤ n) (hrn : n ≤ r) (A : Matrix (Fin r) (Fin n) ℝ) (d : SVD ℝ r n n) (hd : IsNearSVD ε η A d)
    (hS : ∀ i, d.S i ≠ 0) {mul1 : Matrix (Fin n) (Fin r) ℝ → Matrix (Fin r) (Fin m) ℝ → Matrix (Fin n) (Fin m) ℝ} (h1 : Fl.IsProduct u mul1)
    {mul2 : Matrix (Fin n) (Fin n) ℝ → Matrix (Fin n) (Fin m) ℝ → Matrix (Fin n) (Fin m) ℝ} (h2 : Fl.IsProduct u mul2) (hε : 0 ≤ ε)
    (hτ : svdSolveErr u ε r n ≤ 1 / 100) (hη : η ≤ 1 / 100) (b : Matrix (Fin r) (Fin m) ℝ) :
    ∃ x, Fl.svdSolvePrecede fl mul1 mul2 d b = some x ∧ ∀ j (y : Fin n → ℝ),
      norm2 (A.mulVec (fun i => x i j) - fun i => b i j) ≤ norm2 (A.mulVec y - fun i => b i j) +
        (η + 3 * svdSolveErr u ε r n) * (frob A * (norm2 (fun i => x i j) + norm2 y)) + 3 * svdSolveErr u ε r n * norm2 fun i => b i j := by
  obtain ⟨x, hx, hs⟩ := steps h hrn hd hS h1 h2 b
  refine ⟨x, hx, fun j y => ?_⟩
  obtain ⟨P, W, C, Y, hst⟩ := hs j
  have := hst.least_squares hn hε h.u_nonneg (u_le h.u_nonneg (hn.trans hrn)) hτ hη (Matrix.of fun i _ => y i)
  rw [frob_col, frob_col, frob_col] at this
  have e : ∀ z : Fin n → ℝ, A * (Matrix.of fun i (_ : Fin 1) => z i) - (Matrix.of fun i (_ : Fin 1) => b i j) =
      Matrix.of fun i (_ : Fin 1) => (A.mulVec z - fun i => b i j) i := fun z => rfl
  rw [e, e, frob_col, frob_col] at this
  exact this

/-- C136, `PRECEDE_VECTOR`, square matrices: the computed solution is the exact one of a system whose matrix and right-hand side are off by little, relative
to their sizes: the residual is small however ill-conditioned the matrix is. -/
theorem C136_residual_precede (h : Rounding fl u) (hn : 1 ≤ n) (A : Matrix (Fin n) (Fin n) ℝ) (d : SVD ℝ n n n) (hd : IsNearSVD ε η A d)
    (hS : ∀ i, d.S i ≠ 0) {mul1 mul2 : Matrix (Fin n) (Fin n) ℝ → Matrix (Fin n) (Fin m) ℝ → Matrix (Fin n) (Fin m) ℝ} (h1 : Fl.IsProduct u mul1)
    (h2 : Fl.IsProduct u mul2) (hε : 0 ≤ ε) (hτ : svdSolveErr u ε n n ≤ 1 / 100) (hη : η ≤ 1 / 100) (b : Matrix (Fin n) (Fin m) ℝ) :
    ∃ x, Fl.svdSolvePrecede fl mul1 mul2 d b = some x ∧ ∀ j,
      norm2 (A.mulVec (fun i => x i j) - fun i => b i j) ≤
        (η + 3 * svdSolveErr u ε n n) * (frob A * norm2 fun i => x i j) + 3 * svdSolveErr u ε n n * norm2 fun i => b i j := by
  obtain ⟨x, hx, hs⟩ := steps h le_rfl hd hS h1 h2 b
  refine ⟨x, hx, fun j => ?_⟩
  obtain ⟨P, W, C, Y, hst⟩ := hs j
  have := hst.residual hn hε h.u_nonneg (u_le h.u_nonneg hn) hτ hη
  rw [frob_col, frob_col] at this
  have e : A * (Matrix.of fun i (_ : Fin 1) => x i j) - (Matrix.of fun i (_ : Fin 1) => b i j) =
      Matrix.of fun i (_ : Fin 1) => (A.mulVec (fun i => x i j) - fun i => b i j) i := rfl
  rw [e, frob_col] at this
  exact this

/-- The steps of `Solve` for `FOLLOW_VECTOR` are those of the transposed system. -/
private theorem steps_follow (h : Rounding fl u) (hrn : r ≤ n) {A : Matrix (Fin r) (Fin n) ℝ} {d : SVD ℝ r r n} (hd : IsNearSVD ε η A d)
    (hS : ∀ i, d.S i ≠ 0) {mul1 : Matrix (Fin m) (Fin n) ℝ → Matrix (Fin n) (Fin r) ℝ → Matrix (Fin m) (Fin r) ℝ} (h1 : Fl.IsProduct u mul1)
    {mul2 : Matrix (Fin m) (Fin r) ℝ → Matrix (Fin r) (Fin r) ℝ → Matrix (Fin m) (Fin r) ℝ} (h2 : Fl.IsProduct u mul2) (b : Matrix (Fin m) (Fin n) ℝ) :
    ∃ x, Fl.svdSolveFollow fl mul1 mul2 d b = some x ∧ ∀ i, ∃ P W C Y, Fl.SolveSteps u ((1 + u) ^ n - 1) ε η A.transpose d.V.transpose P d.S d.U.transpose W
      (Matrix.of fun j (_ : Fin 1) => b i j) C Y (Matrix.of fun j (_ : Fin 1) => x i j) := by
  obtain ⟨⟨P, hP, hU⟩, ⟨W, hW, hV⟩, hA⟩ := hd
  refine ⟨mul2 (Matrix.of fun i j => fl (mul1 b d.V.transpose i j / d.S j)) d.U.transpose, ?_, fun i => ?_⟩
  · unfold Fl.svdSolveFollow
    simp only
    rw [Fl.divLoop_cols fl d.S hS]
    rfl
  refine ⟨W.transpose, P.transpose, Matrix.of fun j _ => mul1 b d.V.transpose i j, Matrix.of fun j _ => fl (mul1 b d.V.transpose i j / d.S j), ?_, ?_,
    ?_, ?_, ?_, hS, ?_, ?_, ?_⟩
  · rwa [Matrix.transpose_transpose]
  · rwa [← Matrix.transpose_sub, frob_transpose]
  · rw [Matrix.transpose_transpose]; exact mul_eq_one_comm.1 hP
  · rwa [← Matrix.transpose_sub, frob_transpose]
  · rw [frob_transpose, ← frob_transpose (_ - _)]
    have e : (d.V.transpose * Matrix.diagonal d.S * d.U.transpose - A.transpose).transpose = d.U * Matrix.diagonal d.S * d.V - A := by
      simp only [Matrix.transpose_sub, Matrix.transpose_mul, Matrix.transpose_transpose, Matrix.diagonal_transpose, Matrix.mul_assoc]
    rwa [e]
  · intro j _
    have := h1 b d.V.transpose i j
    simp only [mul_comm (b i _)] at this
    exact this
  · intro j _
    exact h.err _
  · intro j _
    have := h2 (Matrix.of fun i j => fl (mul1 b d.V.transpose i j / d.S j)) d.U.transpose i j
    simp only [mul_comm (Matrix.of _ _ _)] at this
    refine this.trans (mul_le_mul_of_nonneg_right (pow_mono h.u_nonneg hrn) ?_)
    exact Finset.sum_nonneg fun _ _ => abs_nonneg _

/-- C136, `FOLLOW_VECTOR`, at least as many columns as rows: the same for `x * A = b`, in each row. -/
theorem C136_solve_follow (h : Rounding fl u) (hr : 1 ≤ r) (hrn : r ≤ n) (A : Matrix (Fin r) (Fin n) ℝ) (d : SVD ℝ r r n) (hd : IsNearSVD ε η A d)
    (hS : ∀ i, d.S i ≠ 0) {mul1 : Matrix (Fin m) (Fin n) ℝ → Matrix (Fin n) (Fin r) ℝ → Matrix (Fin m) (Fin r) ℝ} (h1 : Fl.IsProduct u mul1)
    {mul2 : Matrix (Fin m) (Fin r) ℝ → Matrix (Fin r) (Fin r) ℝ → Matrix (Fin m) (Fin r) ℝ} (h2 : Fl.IsProduct u mul2) (hε : 0 ≤ ε)
    (hτ : svdSolveErr u ε n r ≤ 1 / 100) (hη : η ≤ 1 / 100) (b : Matrix (Fin m) (Fin n) ℝ) :
    ∃ x, Fl.svdSolveFollow fl mul1 mul2 d b = some x ∧ ∀ i (y : Fin r → ℝ),
      norm2 (Matrix.vecMul (x i) A - b i) ≤ norm2 (Matrix.vecMul y A - b i) +
        (η + 3 * svdSolveErr u ε n r) * (frob A * (norm2 (x i) + norm2 y)) + 3 * svdSolveErr u ε n r * norm2 (b i) := by
  obtain ⟨x, hx, hs⟩ := steps_follow h hrn hd hS h1 h2 b
  refine ⟨x, hx, fun i y => ?_⟩
  obtain ⟨P, W, C, Y, hst⟩ := hs i
  have := hst.least_squares hr hε h.u_nonneg (u_le h.u_nonneg (hr.trans hrn)) hτ hη (Matrix.of fun i _ => y i)
  rw [frob_col, frob_col, frob_col, frob_transpose] at this
  have e : ∀ z : Fin r → ℝ, A.transpose * (Matrix.of fun i (_ : Fin 1) => z i) - (Matrix.of fun j (_ : Fin 1) => b i j) =
      Matrix.of fun j (_ : Fin 1) => (Matrix.vecMul z A - b i) j := by
    intro z
    rw [← Matrix.mulVec_transpose]
    rfl
  rw [e, e, frob_col, frob_col] at this
  exact this

/-- C136, `FOLLOW_VECTOR`, square matrices. -/
theorem C136_residual_follow (h : Rounding fl u) (hn : 1 ≤ n) (A : Matrix (Fin n) (Fin n) ℝ) (d : SVD ℝ n n n) (hd : IsNearSVD ε η A d)
    (hS : ∀ i, d.S i ≠ 0) {mul1 mul2 : Matrix (Fin m) (Fin n) ℝ → Matrix (Fin n) (Fin n) ℝ → Matrix (Fin m) (Fin n) ℝ} (h1 : Fl.IsProduct u mul1)
    (h2 : Fl.IsProduct u mul2) (hε : 0 ≤ ε) (hτ : svdSolveErr u ε n n ≤ 1 / 100) (hη : η ≤ 1 / 100) (b : Matrix (Fin m) (Fin n) ℝ) :
    ∃ x, Fl.svdSolveFollow fl mul1 mul2 d b = some x ∧ ∀ i,
      norm2 (Matrix.vecMul (x i) A - b i) ≤
        (η + 3 * svdSolveErr u ε n n) * (frob A * norm2 (x i)) + 3 * svdSolveErr u ε n n * norm2 (b i) := by
  obtain ⟨x, hx, hs⟩ := steps_follow h le_rfl hd hS h1 h2 b
  refine ⟨x, hx, fun i => ?_⟩
  obtain ⟨P, W, C, Y, hst⟩ := hs i
  have := hst.residual hn hε h.u_nonneg (u_le h.u_nonneg hn) hτ hη
  rw [frob_col, frob_col, frob_transpose] at this
  have e : A.transpose * (Matrix.of fun j (_ : Fin 1) => x i j) - (Matrix.of fun j (_ : Fin 1) => b i j) =
      Matrix.of fun j (_ : Fin 1) => (Matrix.vecMul (x i) A - b i) j := by
    rw [← Matrix.mulVec_transpose]
    rfl
  rw [e, frob_col] at this
  exact this

/-- The quotients of `Inverse`. -/
private theorem inverse_steps (fl : ℝ → ℝ) {k : ℕ} (mul : Matrix (Fin n) (Fin k) ℝ → Matrix (Fin k) (Fin r) ℝ → Matrix (Fin n) (Fin r) ℝ) (d : SVD ℝ r k n)
    (hS : ∀ i, d.S i ≠ 0) : Fl.svdInverse fl mul d = some (mul (Matrix.of fun i j => fl (d.V j i / d.S j)) d.U.transpose) := by
  unfold Fl.svdInverse
  simp only
  have := Fl.divLoop_cols fl d.S hS d.V.transpose
  have e : (forUp k 0 (fun i (Xi : Option (Matrix (Fin n) (Fin k) ℝ)) => Xi.bind fun Xi =>
      open Classical in
      if d.S i = 0 then none else some (Matrix.of fun a j => if j = i then fl (Xi a i / d.S i) else Xi a j)) (some d.V.transpose)) =
      some (Matrix.of fun i j => fl (d.V.transpose i j / d.S j)) := by
    rw [← this]
    apply forUp_congr
    intro i st
    cases st with
    | none => rfl
    | some x => simp only [Option.bind_some, dif_pos i.isLt, Fin.eta, Fin.ext_iff]
  rw [e]
  rfl

/-- C136, `Inverse`, at least as many rows as columns: a left inverse, up to rounding errors times the product of the sizes of the matrix and of its inverse, a
condition number. -/
theorem C136_inverse_tall (h : Rounding fl u) (hn : 1 ≤ n) (hrn : n ≤ r) (A : Matrix (Fin r) (Fin n) ℝ) (d : SVD ℝ r n n) (hd : IsNearSVD ε η A d)
    (hS : ∀ i, d.S i ≠ 0) {mul : Matrix (Fin n) (Fin n) ℝ → Matrix (Fin n) (Fin r) ℝ → Matrix (Fin n) (Fin r) ℝ} (h1 : Fl.IsProduct u mul) (hε : 0 ≤ ε)
    (hτ : svdSolveErr u ε r n ≤ 1 / 100) (hη : η ≤ 1 / 100) :
    ∃ X, Fl.svdInverse fl mul d = some X ∧ frob (X * A - 1) ≤ (η + 5 * svdSolveErr u ε r n) * (frob X * frob A) := by
  obtain ⟨⟨P, hP, hU⟩, ⟨W, hW, hV⟩, hA⟩ := hd
  refine ⟨_, inverse_steps fl mul d hS, ?_⟩
  refine Fl.inverse_left hP hU (mul_eq_one_comm.1 hW) hV hA hS hn hε h.u_nonneg (u_le h.u_nonneg (hn.trans hrn)) hτ hη
    (Q := Matrix.of fun i j => fl (d.V j i / d.S j)) (fun i j => h.err _) fun i j => ?_
  refine (h1 _ d.U.transpose i j).trans (mul_le_mul_of_nonneg_right (pow_mono h.u_nonneg hrn) ?_)
  exact Finset.sum_nonneg fun _ _ => abs_nonneg _

/-- C136, `Inverse`, at least as many columns as rows: a right inverse. For square matrices both theorems apply. -/
theorem C136_inverse_wide (h : Rounding fl u) (hr : 1 ≤ r) (A : Matrix (Fin r) (Fin n) ℝ) (d : SVD ℝ r r n) (hd : IsNearSVD ε η A d)
    (hS : ∀ i, d.S i ≠ 0) {mul : Matrix (Fin n) (Fin r) ℝ → Matrix (Fin r) (Fin r) ℝ → Matrix (Fin n) (Fin r) ℝ} (h1 : Fl.IsProduct u mul) (hε : 0 ≤ ε)
    (hτ : svdSolveErr u ε r r ≤ 1 / 100) (hη : η ≤ 1 / 100) :
    ∃ X, Fl.svdInverse fl mul d = some X ∧ frob (A * X - 1) ≤ (η + 5 * svdSolveErr u ε r r) * (frob X * frob A) := by
  obtain ⟨⟨P, hP, hU⟩, ⟨W, hW, hV⟩, hA⟩ := hd
  refine ⟨_, inverse_steps fl mul d hS, ?_⟩
  exact Fl.inverse_right hP hU hW hV hA hS hr hε h.u_nonneg (u_le h.u_nonneg hr) hτ hη
    (Q := Matrix.of fun i j => fl (d.V j i / d.S j)) (fun i j => h.err _) fun i j => h1 _ d.U.transpose i j

/-- C136, the two-sided Jacobi algorithm: when it has converged, what it returns is such a decomposition. -/
theorem C136_two_sided {w : ℝ} (h : Rounding fl u) (h1 : fl 1 = 1) (hu1 : u < 1) {ps pd : ℝ → ℝ → ℝ → ℝ → ℝ} (hps : Fl.IsProdSum fl ps)
    (hpd : Fl.IsProdDiff fl pd) {hyp : ℝ → ℝ → ℝ → ℝ} (hh : Fl.IsHypot w hyp) (hw : 0 ≤ w) (hw1 : w < 1) (hη : cosSinMax u w < 2) {tol : ℝ} (htol : 0 ≤ tol)
    {big big' : ℝ} (hbig : big' < big) (zs : ℕ → Fin r → Fin r → ZeroSigns ℝ) (hrn : n + 1 ≤ r) (sweeps : ℕ) (A : Matrix (Fin r) (Fin (n + 1)) ℝ)
    (d : SVD ℝ r (n + 1) (n + 1)) (hd : Fl.svdTwoSided fl ps pd hyp tol big big' zs hrn sweeps A = some d)
    (hend : (jacobiLoop (Fl.twoSweep fl ps pd hyp tol zs) sweeps 0 big big' (Fl.twoInit fl A (matScaleElements A))).map Prod.snd = some 0) :
    IsNearSVD (Real.sqrt r * jacobi2Err u w (sweeps * (r * (r - 1) / 2)))
      ((1 + u) ^ 2 * (1 + jacobi2Err u w (2 * (sweeps * (r * (r - 1) / 2)))) * (1 + Real.sqrt r * jacobi2Err u w (sweeps * (r * (r - 1) / 2))) ^ 2 - 1 + r * tol)
      A d := by
  obtain ⟨⟨P, hP, hU⟩, W, hW, hV⟩ := C106_orthogonal h h1 hu1 hps hpd hh hw hw1 hη htol big big' zs hrn sweeps A d hd
  have j0 : 0 ≤ jacobi2Err u w (sweeps * (r * (r - 1) / 2)) := (norm2_nonneg _).trans (hV 0)
  refine ⟨⟨P, hP, frob_le_sqrt j0 hU⟩, ⟨W, mul_eq_one_comm.1 hW, ?_⟩, C106_converged h h1 hu1 hps hpd hh hw hw1 hη htol hbig zs hrn sweeps A d hd hend⟩
  rw [← frob_transpose]
  refine (frob_le_sqrt j0 hV).trans (mul_le_mul_of_nonneg_right (Real.sqrt_le_sqrt ?_) j0)
  exact_mod_cast hrn

/-- C136: the products of the code, in any layout and configuration, are as accurate as the theorems above need it. -/
theorem C136_product {c : Cfg} {a b e : ℕ} [NeZero b] {o : Order} {L L' : Layout} {p1 p2 : Bool} (h : Rounding fl u) {op : ℝ → ℝ → ℝ → ℝ}
    (hop : Fl.IsMulAdd fl op) (cv : Bool) (tb : RTree (batchSize b false)) (ts : RTree (b + 1)) (htb : tb.Valid) (hts : ts.Valid)
    (m0 : Mat c ℝ a e o L (p1 && p2)) (m1 : Mat c ℝ a b o L p1) (m2 : Mat c ℝ b e o L' p2) :
    Fl.IsProduct u fun A B => Matrix.of fun i j => (Fl.matMul fl op cv tb ts m0 (Mat.fillLoop A m1) (Mat.fillLoop B m2)).get i j := by
  intro A B i j
  have := C82_mul h hop cv tb ts htb hts m0 (Mat.fillLoop A m1) (Mat.fillLoop B m2) i j
  have e1 : ∀ (M : Matrix (Fin a) (Fin b) ℝ) i j, (Mat.fillLoop M m1).get i j = M i j := fun M i j => Mat.get_fillLoop _ _ _ _
  have e2 : ∀ (M : Matrix (Fin b) (Fin e) ℝ) i j, (Mat.fillLoop M m2).get i j = M i j := fun M i j => Mat.get_fillLoop _ _ _ _
  simp only [e1, e2] at this
  exact this

/-- The hypotheses can be met: a diagonal matrix, its decomposition, single precision, products that are rounded once. -/
example (b : Matrix (Fin 2) (Fin 1) ℝ) :
    let d : SVD ℝ 2 2 2 := ⟨1, ![3, 2], 1⟩
    let mul : Matrix (Fin 2) (Fin 2) ℝ → Matrix (Fin 2) (Fin 1) ℝ → Matrix (Fin 2) (Fin 1) ℝ := fun A B => Matrix.of fun i j => flAway 24 ((A * B) i j)
    ∃ x, Fl.svdSolvePrecede (flAway 24) mul mul d b = some x ∧
      norm2 ((Matrix.diagonal ![3, 2]).mulVec (fun i => x i 0) - fun i => b i 0) ≤ 1 / 100 * (frob (Matrix.diagonal ![(3 : ℝ), 2]) * norm2 fun i => x i 0) +
        1 / 100 * norm2 fun i => b i 0 := by
  intro d mul
  have h : Rounding (flAway 24) ((2 : ℝ) ^ (-((24 : ℕ) : ℤ))) := (flAway_roundsToNearest (by norm_num)).rounding (by norm_num)
  have hd : IsNearSVD 0 0 (Matrix.diagonal ![(3 : ℝ), 2]) d := by
    refine ⟨⟨1, by simp, ?_⟩, ⟨1, by simp, ?_⟩, ?_⟩
    · simp [d, frob]
    · simp [d, frob]
    · simp [d, frob]
  have hS : ∀ i, d.S i ≠ 0 := by
    intro i
    fin_cases i <;> simp [d]
  have hm : Fl.IsProduct ((2 : ℝ) ^ (-((24 : ℕ) : ℤ))) mul := by
    intro A B i j
    have h1 := h.err ((A * B) i j)
    rw [Matrix.mul_apply] at h1
    have h2 := Finset.abs_sum_le_sum_abs (fun q => A i q * B q j) Finset.univ
    have h3 := u_le h.u_nonneg (b := 2) (by norm_num)
    have e : mul A B i j = flAway 24 (∑ q, A i q * B q j) := by
      simp only [mul, Matrix.of_apply, Matrix.mul_apply]
    rw [e]
    exact h1.trans (mul_le_mul h3 h2 (abs_nonneg _) (h.u_nonneg.trans h3))
  have hτ : 3 * svdSolveErr ((2 : ℝ) ^ (-((24 : ℕ) : ℤ))) 0 2 2 ≤ 1 / 100 := by
    unfold svdSolveErr
    have : Real.sqrt ((2 : ℕ) : ℝ) ≤ 2 := by rw [Real.sqrt_le_left (by norm_num)]; norm_num
    have h2 : (1 + (2 : ℝ) ^ (-((24 : ℕ) : ℤ))) ^ 2 - 1 ≤ 1 / 1000 := by norm_num
    have h3 : 0 ≤ (1 + (2 : ℝ) ^ (-((24 : ℕ) : ℤ))) ^ 2 - 1 := by norm_num
    have := mul_le_mul this h2 h3 (by norm_num)
    linarith
  have hτ' : svdSolveErr ((2 : ℝ) ^ (-((24 : ℕ) : ℤ))) 0 2 2 ≤ 1 / 100 := by
    have : 0 ≤ svdSolveErr ((2 : ℝ) ^ (-((24 : ℕ) : ℤ))) 0 2 2 := by
      unfold svdSolveErr
      have h3 : 0 ≤ (1 + (2 : ℝ) ^ (-((24 : ℕ) : ℤ))) ^ 2 - 1 := by norm_num
      positivity
    linarith
  obtain ⟨x, hx, hr⟩ := C136_residual_precede h (by norm_num) (Matrix.diagonal ![(3 : ℝ), 2]) d hd hS hm hm le_rfl hτ' (by norm_num) b
  refine ⟨x, hx, (hr 0).trans (add_le_add ?_ ?_)⟩
  · rw [zero_add]
    exact mul_le_mul_of_nonneg_right hτ (mul_nonneg (frob_nonneg _) (norm2_nonneg _))
  · exact mul_le_mul_of_nonneg_right hτ (norm2_nonneg _)

end Mathter.Props
