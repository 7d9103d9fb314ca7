import Verif.Model.RoundedComplexLeastSquares
import Verif.Props.RoundedComplexQR

/-! # C151: least squares with complex QR decompositions in floating point -/

namespace Mathter.Props
open Mathter
variable {r n m : ℕ} {fl : ℝ → ℝ}

private theorem col_eq {a b : ℕ} {P : Matrix (Fin a) (Fin b) ℂ} (h : P.conjTranspose * P = 1) (x : Fin b → ℂ) : normC (P.mulVec x) = normC x :=
  normC_mul_col h (Matrix.of fun i (_ : Fin 1) => x i) 0

private theorem le_sqrtC {x : Fin n → ℂ} {B : ℝ} (hB : 0 ≤ B) (h : ∀ i, ‖x i‖ ≤ B) : normC x ≤ Real.sqrt n * B :=
  norm2_le_sqrt hB fun i => by rw [abs_norm]; exact h i

private theorem norm_le_normC (x : Fin n → ℂ) (i : Fin n) : ‖x i‖ ≤ normC x := by
  have := abs_le_norm2 (fun i => ‖x i‖) i
  rwa [abs_norm] at this

private theorem dot_leC (x y : Fin n → ℂ) : ‖∑ i, x i * y i‖ ≤ normC x * normC y := by
  refine (norm_sum_le _ _).trans ?_
  simp only [norm_mul]
  exact normC_dot_le x y

/-- The least squares solution of `Q R x = b` for orthonormal columns of `Q`. -/
private theorem minimiserC {Q : Matrix (Fin r) (Fin n) ℂ} (hQ : Q.conjTranspose * Q = 1) (R : Matrix (Fin n) (Fin n) ℂ) (x : Fin n → ℂ) (b : Fin r → ℂ)
    (hx : R.mulVec x = Q.conjTranspose.mulVec b) (y : Fin n → ℂ) :
    normC (fun i => (Q * R).mulVec x i - b i) ≤ normC (fun i => (Q * R).mulVec y i - b i) := by
  set e : Fin r → ℂ := fun i => (Q * R).mulVec x i - b i with he
  set w : Fin n → ℂ := R.mulVec y - R.mulVec x with hw
  have e1 : (fun i => (Q * R).mulVec y i - b i) = fun i => e i + Q.mulVec w i := by
    funext i
    rw [he, hw, Matrix.mulVec_sub, Matrix.mulVec_mulVec, Matrix.mulVec_mulVec, Pi.sub_apply]; ring
  have e2 : Q.conjTranspose.mulVec e = 0 := by
    have : e = (Q * R).mulVec x - b := rfl
    rw [this, Matrix.mulVec_sub, Matrix.mulVec_mulVec, ← Matrix.mul_assoc, hQ, Matrix.one_mul, hx, sub_self]
  have e3 : ∑ i, star (Q.mulVec w i) * e i = 0 := by
    have : ∑ i, star (Q.mulVec w i) * e i = star (Q.mulVec w) ⬝ᵥ e := rfl
    rw [this, Matrix.star_mulVec, ← Matrix.dotProduct_mulVec, e2, dotProduct_zero]
  have e4 : ∑ i, star (e i) * Q.mulVec w i = 0 := by
    have := congrArg star e3
    rw [star_sum, star_zero] at this
    rw [← this]
    exact Finset.sum_congr rfl fun i _ => by rw [star_mul, star_star]
  rw [e1]
  have e5 : ((normC (fun i => e i + Q.mulVec w i) ^ 2 : ℝ) : ℂ) = ((normC e ^ 2 + normC (Q.mulVec w) ^ 2 : ℝ) : ℂ) := by
    rw [Complex.ofReal_add, normC_sq, normC_sq, normC_sq]
    have : ∑ i, star (e i + Q.mulVec w i) * (e i + Q.mulVec w i) =
        ∑ i, star (e i) * e i + ∑ i, star (e i) * Q.mulVec w i + ∑ i, star (Q.mulVec w i) * e i + ∑ i, star (Q.mulVec w i) * Q.mulVec w i := by
      rw [← Finset.sum_add_distrib, ← Finset.sum_add_distrib, ← Finset.sum_add_distrib]
      exact Finset.sum_congr rfl fun i _ => by rw [star_add]; ring
    rw [this, e3, e4]
    ring
  have e6 : normC (fun i => e i + Q.mulVec w i) ^ 2 = normC e ^ 2 + normC (Q.mulVec w) ^ 2 := by exact_mod_cast e5
  refine abs_le_of_sq_le_sq' ?_ (normC_nonneg _) |>.2
  rw [e6]
  have := sq_nonneg (normC (Q.mulVec w))
  linarith

/-- Relative change of the columns of the matrix. -/
noncomputable def solveErrAC (p r n : ℕ) : ℝ := (1 + roundoffC p n) * (1 + 1000 * qrRoundoffC p r n) - 1

/-- Relative change of the right hand side. -/
noncomputable def solveErrBC (p r n : ℕ) : ℝ :=
  let κ := Real.sqrt r * (480 * qrRoundoffC p r n)
  Real.sqrt n * (κ + 283 / 200 * ((1 + (2 : ℝ) ^ (-(p : ℤ))) ^ (2 * r) - 1) * (1 + κ))

/-- C151: `DecompositionQR::Solve` on the rounded factors of a complex matrix with at least as many rows as columns, unless a diagonal element of `R` is zero: every
column of the result is the exact least squares solution for a matrix and a right hand side that are close to the given ones. -/
theorem C151_solve {p : ℕ} (hp : 8 ≤ p) (h : RoundsToNearest p fl) {ps pd : ℝ → ℝ → ℝ → ℝ → ℝ} (hps : Fl.IsProdSum fl ps) (hpd : Fl.IsProdDiff fl pd)
    {op : ℂ → ℂ → ℂ → ℂ} (hop : Fl.IsMulAddC fl ps pd op) {ds dv : ℂ → ℝ → ℂ} (hds : AccurateDivR p ds) (hdv : AccurateDivR p dv) {dq : ℂ → ℂ → ℂ}
    (hdq : AccurateDivC p dq) {ab : ℂ → ℝ} (hab : AccurateAbsC p ab) (c : Cfg) (pk conv : Bool) {lo hi : ℝ} (hlo : 0 < lo) (hh : lo ≤ hi)
    (tb : RTree (batchSize (r + 1) false)) (ts : RTree (r + 1 + 1)) (htb : tb.Valid) (hts : ts.Valid) (hrn : n + 1 ≤ r + 1)
    (hsmall : 480 * qrRoundoffC p (r + 1) (n + 1) ≤ 1) (A : Matrix (Fin (r + 1)) (Fin (n + 1)) ℂ)
    {L L' : Layout} {p1 p2 : Bool} (t0 t1 : Mat c ℂ (n + 1) (r + 1) .precede L p1) (m0 : Mat c ℂ (n + 1) m .precede L (p1 && p2))
    (Q : Mat c ℂ (r + 1) (n + 1) .precede L p1) (b : Mat c ℂ (r + 1) m .precede L' p2) :
    let d := Fl.decomposeQRC fl (Fl.prodC ps pd) op ds dv ab (Fl.lengthPreciseC c pk fl ps pd dv lo hi conv tb ts) lo hrn A
    (∀ i, d.R i i ≠ 0) → (∀ i j, Q.get i j = d.Q i j) →
    ∃ X, Fl.qrSolveC fl ps pd op dq conv tb ts t0 t1 m0 Q d.R b = some X ∧
    ∀ j, ∃ (M : Matrix (Fin (r + 1)) (Fin (n + 1)) ℂ) (β : Fin (r + 1) → ℂ),
      (∀ q, normC (fun i => M i q - A i q) ≤ solveErrAC p (r + 1) (n + 1) * normC (fun i => A i q)) ∧
      normC (fun i => β i - b.get i j) ≤ solveErrBC p (r + 1) (n + 1) * normC (fun i => b.get i j) ∧
      (∀ y : Fin (n + 1) → ℂ, normC (fun i => M.mulVec (fun q => X q j) i - β i) ≤ normC (fun i => M.mulVec y i - β i)) ∧
      (r = n → ∀ i, M.mulVec (fun q => X q j) i = β i) := by
  intro d h0 hQ
  have hr := h.rounding (by omega : 1 ≤ p)
  obtain ⟨hlow, O, hO, hR, hE⟩ := C150_backward hp h hps hpd hop hds hdv hab c pk conv hlo hh tb ts htb hts hrn hsmall A
  have hfl : ∀ i j, IsFloatC p (d.R i j) := fun i j => ⟨h.mem _, h.mem _⟩
  change ∀ i j, j < i → d.R i j = 0 at hlow
  change ∀ j, normC (fun i => (O * d.R) i j - A i j) ≤ _ at hR
  change ∀ i, normC (fun j => d.Q i j - O i j) ≤ _ at hE
  clear_value d
  unfold solveErrAC solveErrBC
  obtain ⟨X, hX, hXb⟩ := C146_upper hp h hps hpd hdq d.R (Matrix.of (Fl.matMulC fl (Fl.prodC ps pd) op conv tb ts m0 (Mat.conjTranspose conv t0 t1 Q) b).get) hfl hlow h0
  have hu0 := hr.u_nonneg
  have hγ : 0 ≤ (1 + (2 : ℝ) ^ (-(p : ℤ))) ^ (2 * (r + 1)) - 1 := by linarith [hr.one_le (2 * (r + 1))]
  have hρ : 0 ≤ roundoffC p (n + 1) := by
    unfold roundoffC
    have hu1 : (2 : ℝ) ^ (-(p : ℤ)) ≤ 1 / 256 := by
      rw [zpow_neg, zpow_natCast, one_div]
      exact inv_anti₀ (by norm_num) (by calc (256 : ℝ) = 2 ^ 8 := by norm_num
        _ ≤ 2 ^ p := pow_le_pow_right₀ (by norm_num) hp)
    have : (1 : ℝ) ≤ 1 / (1 - 6 * (2 : ℝ) ^ (-(p : ℤ))) := by rw [le_div_iff₀ (by linarith)]; linarith
    have := one_le_pow₀ this (n := n + 1)
    linarith
  refine ⟨X, hX, fun j => ?_⟩
  obtain ⟨D, hD, eD⟩ := hXb j
  -- the right hand side
  have hf : ∀ i, ‖(Fl.matMulC fl (Fl.prodC ps pd) op conv tb ts m0 (Mat.conjTranspose conv t0 t1 Q) b).get i j -
      ∑ q, (Mat.conjTranspose conv t0 t1 Q).get i q * b.get q j‖ ≤
      283 / 200 * (((1 + (2 : ℝ) ^ (-(p : ℤ))) ^ (2 * (r + 1)) - 1) * ∑ q, ‖(Mat.conjTranspose conv t0 t1 Q).get i q‖ * ‖b.get q j‖) := fun i => by
    obtain ⟨h1, h2⟩ := C144_mul hr hps hpd hop conv tb ts htb hts m0 (Mat.conjTranspose conv t0 t1 Q) b i j
    generalize (Fl.matMulC fl (Fl.prodC ps pd) op conv tb ts m0 (Mat.conjTranspose conv t0 t1 Q) b).get i j -
      ∑ q, (Mat.conjTranspose conv t0 t1 Q).get i q * b.get q j = w at *
    generalize ((1 + (2 : ℝ) ^ (-(p : ℤ))) ^ (2 * (r + 1)) - 1) * ∑ q, ‖(Mat.conjTranspose conv t0 t1 Q).get i q‖ * ‖b.get q j‖ = v at *
    have hb : 0 ≤ v := (abs_nonneg _).trans h1
    rw [← abs_norm, ← abs_of_nonneg (by positivity : 0 ≤ 283 / 200 * v), ← sq_le_sq, ← Complex.normSq_eq_norm_sq, Complex.normSq_apply]
    have a1 := mul_self_le_mul_self (abs_nonneg _) h1
    have a2 := mul_self_le_mul_self (abs_nonneg _) h2
    rw [abs_mul_abs_self] at a1 a2
    nlinarith [mul_self_nonneg v]
  have hT : ∀ i q, (Mat.conjTranspose conv t0 t1 Q).get i q = star (d.Q q i) := by
    intro i q
    have := congrFun (congrFun (C27_conj_transpose conv t0 t1 Q) i) q
    exact this.trans (congrArg star (hQ q i))
  simp only [hT, norm_star] at hf
  set f : Fin (n + 1) → ℂ := fun i => (Fl.matMulC fl (Fl.prodC ps pd) op conv tb ts m0 (Mat.conjTranspose conv t0 t1 Q) b).get i j with hfdef
  have eD' : (d.R + D).mulVec (fun q => X q j) = f := eD
  change ∀ i, ‖f i - _‖ ≤ _ at hf
  clear_value f
  set B : Fin (r + 1) → ℂ := fun i => b.get i j with hB
  set γ := (1 + (2 : ℝ) ^ (-(p : ℤ))) ^ (2 * (r + 1)) - 1
  clear_value γ
  have hκ : 0 ≤ 480 * qrRoundoffC p (r + 1) (n + 1) := (normC_nonneg _).trans (hE 0)
  have hOc : ∀ q, normC (fun i => O i q) = 1 := by
    intro q
    have := normC_mul_col hO 1 q
    rw [Matrix.mul_one, Fl.normC_one_col] at this
    exact this
  set σ : ℝ := Real.sqrt ((r + 1 : ℕ) : ℝ) * (480 * qrRoundoffC p (r + 1) (n + 1)) with hσ
  have hσ0 : 0 ≤ σ := mul_nonneg (Real.sqrt_nonneg _) hκ
  have hcol : ∀ q, normC (fun i => d.Q i q - O i q) ≤ σ := fun q =>
    le_sqrtC hκ fun i => (norm_le_normC (fun q => d.Q i q - O i q) q).trans (hE i)
  have hQc : ∀ q, normC (fun i => d.Q i q) ≤ 1 + σ := by
    intro q
    have t := normC_add_le (fun i => d.Q i q - O i q) (fun i => O i q)
    simp only [sub_add_cancel] at t
    linarith [hcol q, hOc q]
  clear_value σ
  have hB0 := normC_nonneg B
  have hfe : ∀ q, ‖f q - O.conjTranspose.mulVec B q‖ ≤ (σ + 283 / 200 * γ * (1 + σ)) * normC B := by
    intro q
    have t1 : ‖f q - ∑ i, star (d.Q i q) * B i‖ ≤ 283 / 200 * (γ * ((1 + σ) * normC B)) := by
      refine (hf q).trans (mul_le_mul_of_nonneg_left (mul_le_mul_of_nonneg_left ?_ hγ) (by norm_num))
      exact (normC_dot_le (fun i => d.Q i q) B).trans (mul_le_mul_of_nonneg_right (hQc q) hB0)
    have t2 : ‖∑ i, star (d.Q i q) * B i - O.conjTranspose.mulVec B q‖ ≤ σ * normC B := by
      have e : ∑ i, star (d.Q i q) * B i - O.conjTranspose.mulVec B q = ∑ i, star (d.Q i q - O i q) * B i := by
        rw [Matrix.mulVec, dotProduct, ← Finset.sum_sub_distrib]
        exact Finset.sum_congr rfl fun i _ => by rw [Matrix.conjTranspose_apply, star_sub]; ring
      rw [e]
      refine (dot_leC (fun i => star (d.Q i q - O i q)) B).trans (mul_le_mul_of_nonneg_right ?_ hB0)
      rw [normC_star fun i => d.Q i q - O i q]
      exact hcol q
    have t3 := norm_add_le (f q - ∑ i, star (d.Q i q) * B i) (∑ i, star (d.Q i q) * B i - O.conjTranspose.mulVec B q)
    rw [sub_add_sub_cancel] at t3
    linarith
  have hOβ : ∀ w : Fin (n + 1) → ℂ, O.conjTranspose.mulVec (O.mulVec w) = w := by
    intro w; rw [Matrix.mulVec_mulVec, hO, Matrix.one_mulVec]
  set g : Fin (n + 1) → ℂ := f - O.conjTranspose.mulVec B with hg
  have hkey : (d.R + D).mulVec (fun q => X q j) = O.conjTranspose.mulVec (B + O.mulVec g) := by
    rw [Matrix.mulVec_add, hOβ, hg, eD']; simp
  refine ⟨O * (d.R + D), B + O.mulVec g, fun q => ?_, ?_, fun y => minimiserC hO _ _ _ hkey y, fun hrn' => ?_⟩
  · have e1 : normC (fun i => d.R i q) ≤ (1 + 1000 * qrRoundoffC p (r + 1) (n + 1)) * normC (fun i => A i q) := by
      have t := normC_add_le (fun i => (O * d.R) i q - A i q) (fun i => A i q)
      simp only [sub_add_cancel] at t
      rw [normC_mul_col hO] at t
      linarith [hR q]
    have e2 : normC (fun i => (O * D) i q) ≤ roundoffC p (n + 1) * normC (fun i => d.R i q) := by
      rw [normC_mul_col hO]
      exact normC_le_mul hρ fun i => hD i q
    have t := normC_add_le (fun i => (O * D) i q) (fun i => (O * d.R) i q - A i q)
    have e3 : (fun i => (O * D) i q + ((O * d.R) i q - A i q)) = fun i => (O * (d.R + D)) i q - A i q := by
      funext i; rw [Matrix.mul_add, Matrix.add_apply]; ring
    rw [e3] at t
    have e4 := mul_le_mul_of_nonneg_left e1 hρ
    linarith [hR q]
  · have e : (fun i => (B + O.mulVec g) i - b.get i j) = O.mulVec g := by
      funext i; simp [hB]
    rw [e, col_eq hO]
    have := le_sqrtC (mul_nonneg (add_nonneg hσ0 (mul_nonneg (mul_nonneg (by norm_num) hγ) (by linarith))) hB0) hfe
    rw [← mul_assoc] at this
    exact this
  · subst hrn'
    have hO' : O * O.conjTranspose = 1 := mul_eq_one_comm.1 hO
    intro i
    have := congrArg O.mulVec hkey
    rw [Matrix.mulVec_mulVec, Matrix.mulVec_mulVec, hO', Matrix.one_mulVec] at this
    exact congrFun this i

private theorem mulVec_leC (E : Matrix (Fin r) (Fin n) ℂ) (y : Fin n → ℂ) : normC (E.mulVec y) ≤ norm2 (fun j => normC fun i => E i j) * normC y := by
  have e : norm2 (fun j => normC fun i => E i j) = norm2 (fun i => normC (E i)) := by
    unfold normC norm2
    congr 1
    simp only [← norm2.eq_1, norm2_sq]
    exact Finset.sum_comm
  rw [e, mul_comm, ← abs_of_nonneg (normC_nonneg y), ← norm2_smul]
  refine normC_le_norm2 fun i => ?_
  rw [mul_comm]
  exact dot_leC (E i) y

/-- C151: no diagonal element of the rounded `R` is zero, so `Solve` has a result, if the columns of the matrix are not too close to linear dependence: with the smallest
singular value `μ` of the matrix above the backward error. -/
theorem C151_regular {p : ℕ} (hp : 8 ≤ p) (h : RoundsToNearest p fl) {ps pd : ℝ → ℝ → ℝ → ℝ → ℝ} (hps : Fl.IsProdSum fl ps) (hpd : Fl.IsProdDiff fl pd)
    {op : ℂ → ℂ → ℂ → ℂ} (hop : Fl.IsMulAddC fl ps pd op) {ds dv : ℂ → ℝ → ℂ} (hds : AccurateDivR p ds) (hdv : AccurateDivR p dv) {ab : ℂ → ℝ}
    (hab : AccurateAbsC p ab) (c : Cfg) (pk conv : Bool) {lo hi : ℝ} (hlo : 0 < lo) (hh : lo ≤ hi) (tb : RTree (batchSize (r + 1) false)) (ts : RTree (r + 1 + 1))
    (htb : tb.Valid) (hts : ts.Valid) (hrn : n + 1 ≤ r + 1) (hsmall : 480 * qrRoundoffC p (r + 1) (n + 1) ≤ 1) (A : Matrix (Fin (r + 1)) (Fin (n + 1)) ℂ) {μ : ℝ}
    (hμ : ∀ y, μ * normC y ≤ normC (A.mulVec y)) (hA : 1000 * qrRoundoffC p (r + 1) (n + 1) * norm2 (fun j => normC fun i => A i j) < μ) :
    ∀ i, (Fl.decomposeQRC fl (Fl.prodC ps pd) op ds dv ab (Fl.lengthPreciseC c pk fl ps pd dv lo hi conv tb ts) lo hrn A).R i i ≠ 0 := by
  obtain ⟨hlow, O, hO, hR, -⟩ := C150_backward hp h hps hpd hop hds hdv hab c pk conv hlo hh tb ts htb hts hrn hsmall A
  intro i hi0
  set d := Fl.decomposeQRC fl (Fl.prodC ps pd) op ds dv ab (Fl.lengthPreciseC c pk fl ps pd dv lo hi conv tb ts) lo hrn A
  clear_value d
  have hdet : d.R.det = 0 := by
    rw [Matrix.det_of_isUpperTriangular fun i j hij => hlow i j hij]
    exact Finset.prod_eq_zero (Finset.mem_univ i) hi0
  obtain ⟨y, hy0, hy⟩ := Matrix.exists_mulVec_eq_zero_iff.2 hdet
  have hη : 0 ≤ 1000 * qrRoundoffC p (r + 1) (n + 1) := by unfold qrRoundoffC; positivity
  set η := 1000 * qrRoundoffC p (r + 1) (n + 1)
  clear_value η
  have e1 : normC (A.mulVec y) = normC ((O * d.R - A).mulVec y) := by
    rw [Matrix.sub_mulVec, ← Matrix.mulVec_mulVec, hy, Matrix.mulVec_zero, zero_sub]
    exact (normC_neg _).symm
  have hy1 : 0 < normC y := by
    rcases (normC_nonneg y).lt_or_eq with h' | h'
    · exact h'
    · exact absurd (funext fun i => normC_eq_zero h'.symm i) hy0
  have e2 := mulVec_leC (O * d.R - A) y
  have e3 : norm2 (fun j => normC fun i => (O * d.R - A) i j) ≤ norm2 (fun j => η * normC fun i => A i j) :=
    norm2_le_of_abs fun j => by rw [abs_of_nonneg (normC_nonneg _)]; exact hR j
  rw [norm2_smul, abs_of_nonneg hη] at e3
  have := mul_le_mul_of_nonneg_right e3 hy1.le
  have := mul_lt_mul_of_pos_right hA hy1
  linarith [hμ y]

/-- Non-vacuity: the 3×2 matrix with columns `2i e₀`, `3 e₂` in single precision meets the conditions of `C151_regular` and so those of `C151_solve`. -/
example : let A : Matrix (Fin (2 + 1)) (Fin (1 + 1)) ℂ := !![2 * Complex.I, 0; 0, 0; 0, 3]
    (∀ y, 2 * normC y ≤ normC (A.mulVec y)) ∧ 480 * qrRoundoffC 24 (2 + 1) (1 + 1) ≤ 1 ∧
    1000 * qrRoundoffC 24 (2 + 1) (1 + 1) * norm2 (fun j => normC fun i => A i j) < 2 := by
  intro A
  have hA : A = !![2 * Complex.I, 0; 0, 0; 0, 3] := rfl
  have hq : qrRoundoffC 24 (2 + 1) (1 + 1) = 12 / 16777216 := by unfold qrRoundoffC; norm_num
  refine ⟨fun y => ?_, by rw [hq]; norm_num, ?_⟩
  · rw [← abs_of_pos (by norm_num : (0 : ℝ) < 2), hA]
    unfold normC
    rw [← norm2_smul]
    unfold norm2
    refine Real.sqrt_le_sqrt ?_
    simp [Fin.sum_univ_succ, Matrix.mulVec, dotProduct]
    nlinarith [sq_nonneg ‖y 1‖]
  · have e : norm2 (fun j => normC fun i => A i j) ≤ 4 := by
      rw [hA]
      unfold normC norm2
      rw [Real.sqrt_le_left (by norm_num)]
      simp only [← norm2.eq_1, norm2_sq]
      norm_num [Fin.sum_univ_succ]
    rw [hq]
    have := mul_le_mul_of_nonneg_left e (by norm_num : (0 : ℝ) ≤ 1000 * (12 / 16777216))
    linarith

end Mathter.Props
