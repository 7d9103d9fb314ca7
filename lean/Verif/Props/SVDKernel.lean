import Verif.Lemmas.SVDKernel
import Mathlib.Data.Complex.Basic
import Mathlib.Analysis.Complex.Basic
import Mathlib.LinearAlgebra.Matrix.ConjTranspose
import Mathlib.Analysis.Normed.Ring.Basic

/-!
# The 2x2 kernels of the SVD (C41)

The theorems speak about 2x2 matrices: a rotation given by cosine and sine is `[c, -conj s; s, conj c]`.
-/

namespace Mathter.Props
open Mathter
universe u
variable {𝕜 : Type u} [RCLike 𝕜]

/-- The rotation with cosine `c` and sine `s`, its second column multiplied by `det`. -/
def rot2 (c s det : 𝕜) : Matrix (Fin 2) (Fin 2) 𝕜 := !![c, -(det * star s); s, det * star c]

/-- `M` is diagonal. -/
def IsDiag2 (M : Matrix (Fin 2) (Fin 2) 𝕜) : Prop := M 0 1 = 0 ∧ M 1 0 = 0

theorem rot2_unitary (c s det : 𝕜) (h : star c * c + star s * s = 1) (hd : ‖det‖ = 1) :
    (rot2 c s det).conjTranspose * rot2 c s det = 1 := by
  have hd' : star det * det = 1 := by rw [star_mul_self_K, hd]; simp
  ext i j
  fin_cases i <;> fin_cases j <;> simp [rot2, Matrix.mul_apply, Fin.sum_univ_two, Matrix.conjTranspose_apply, -RCLike.star_def]
  · exact h
  · ring
  · ring
  · linear_combination (star c * c + star s * s) * hd' + h

theorem rot_diag_rot (cu su det a b cv sv : 𝕜) : rot2 cu su det * Matrix.diagonal ![a, b] * rot2 cv sv 1 =
    !![cu * a * cv - det * star su * b * sv, -(cu * a * star sv) - det * star su * b * star cv;
      su * a * cv + det * star cu * b * sv, -(su * a * star sv) + det * star cu * b * star cv] := by
  ext i j
  rw [Matrix.mul_apply]
  simp only [Matrix.mul_diagonal, Fin.sum_univ_two]
  fin_cases i <;> fin_cases j <;> simp [rot2, -RCLike.star_def] <;> ring

private theorem gram_offdiag (M : Matrix (Fin 2) (Fin 2) 𝕜) (c s : 𝕜) :
    ((M * rot2 c s 1).conjTranspose * (M * rot2 c s 1)) 0 1 = orthOf (M 0 0) (M 0 1) (M 1 0) (M 1 1) c s := by
  simp [rot2, Matrix.mul_apply, Fin.sum_univ_two, Matrix.conjTranspose_apply, orthOf, -RCLike.star_def]
  ring

private theorem gram_diag (M : Matrix (Fin 2) (Fin 2) 𝕜) (c s : 𝕜) (h : orthOf (M 0 0) (M 0 1) (M 1 0) (M 1 1) c s = 0) :
    IsDiag2 ((M * rot2 c s 1).conjTranspose * (M * rot2 c s 1)) := by
  refine ⟨by rw [gram_offdiag, h], ?_⟩
  have : ((M * rot2 c s 1).conjTranspose * (M * rot2 c s 1)) 1 0 = star (((M * rot2 c s 1).conjTranspose * (M * rot2 c s 1)) 0 1) := by
    generalize M * rot2 c s 1 = N
    simp [Matrix.mul_apply, Matrix.conjTranspose_apply, -RCLike.star_def, mul_comm]
  rw [this, gram_offdiag, h, star_zero]

/-- C41: `MinimizeDiagonalizingRotation` turns a rotation into one whose cosine is real and at least as large as the sine, and which
diagonalises every matrix the given one diagonalises. -/
theorem C41_minimize (c s : 𝕜) (h : (rot2 c s 1).conjTranspose * rot2 c s 1 = 1) :
    let v := minimizeRotation c s
    (rot2 v.1 v.2 1).conjTranspose * rot2 v.1 v.2 1 = 1 ∧ 0 ≤ RCLike.re v.1 ∧ RCLike.im v.1 = 0 ∧ ‖v.2‖ ≤ ‖v.1‖ ∧
    ∀ M : Matrix (Fin 2) (Fin 2) 𝕜, IsDiag2 ((M * rot2 c s 1).conjTranspose * (M * rot2 c s 1)) →
      IsDiag2 ((M * rot2 v.1 v.2 1).conjTranspose * (M * rot2 v.1 v.2 1)) := by
  intro v
  have hu : star c * c + star s * s = 1 := by
    have := congrFun (congrFun h 0) 0
    simpa [rot2, Matrix.mul_apply, Fin.sum_univ_two, Matrix.conjTranspose_apply, -RCLike.star_def] using this
  obtain ⟨h1, h2, h3, h4⟩ := minimizeRotation_spec c s hu
  refine ⟨rot2_unitary _ _ _ h1 (by simp), ?_, ?_, h3, ?_⟩
  · show 0 ≤ RCLike.re (minimizeRotation c s).1
    rw [h2, RCLike.ofReal_re]; exact le_max_of_le_left (norm_nonneg _)
  · show RCLike.im (minimizeRotation c s).1 = 0
    rw [h2, RCLike.ofReal_im]
  · intro M hM
    apply gram_diag
    apply h4
    rw [← gram_offdiag]; exact hM.1

/-- C41: `DiagonalizeHermitian2x2` gives a rotation `V` with `Vᴴ H V` diagonal, for every Hermitian matrix and whatever sign a zero has; and its
assertion always holds. -/
theorem C41_hermitian (neg : Bool) (a11 : ℝ) (aoff : 𝕜) (a22 : ℝ) :
    let v := diagonalizeHermitian neg a11 aoff a22
    let H : Matrix (Fin 2) (Fin 2) 𝕜 := !![(a11 : 𝕜), aoff; star aoff, (a22 : 𝕜)]
    (rot2 v.1 v.2 1).conjTranspose * rot2 v.1 v.2 1 = 1 ∧ IsDiag2 ((rot2 v.1 v.2 1).conjTranspose * H * rot2 v.1 v.2 1) ∧
    (aoff ≠ 0 → ‖aoff‖ < 2 * |hermitianRoot neg a11 aoff a22|) := by
  intro v H
  obtain ⟨h1, h2⟩ := diagonalizeHermitian_spec neg a11 aoff a22
  refine ⟨rot2_unitary _ _ _ h1 (by simp), ⟨?_, ?_⟩, ?_⟩
  · rw [← h2]
    simp only [rot2, Matrix.mul_apply, Fin.sum_univ_two, Matrix.conjTranspose_apply, H, v]
    simp [-RCLike.star_def]
    ring
  · have h3 := congrArg star h2
    rw [star_zero] at h3
    rw [← h3]
    simp only [rot2, Matrix.mul_apply, Fin.sum_univ_two, Matrix.conjTranspose_apply, H, v]
    simp [-RCLike.star_def]
    ring
  · intro h0
    have := (hermitianRoot_spec neg a11 aoff a22).2
    have := norm_pos_iff.2 h0
    linarith

/-- C41: `DiagonalizeTriangular2x2` gives a rotation `V` with `Vᴴ Rᴴ R V` diagonal, for every upper triangular `R`. -/
theorem C41_triangular (neg : Bool) (r11 r12 r22 : 𝕜) :
    let v := diagonalizeTriangular neg r11 r12 r22
    let M := !![r11, r12; 0, r22] * rot2 v.1 v.2 1
    (rot2 v.1 v.2 1).conjTranspose * rot2 v.1 v.2 1 = 1 ∧ IsDiag2 (M.conjTranspose * M) := by
  intro v M
  obtain ⟨h1, h2⟩ := diagonalizeTriangular_spec neg r11 r12 r22
  refine ⟨rot2_unitary _ _ _ h1 (by simp), ?_⟩
  apply gram_diag
  simpa using h2

/-- C41: `DecomposeRQ2x2` gives an upper triangular matrix and a rotation whose product is the matrix. -/
theorem C41_rq (a11 a12 a21 a22 : 𝕜) :
    let d := decomposeRQ2 a11 a12 a21 a22
    (rot2 d.cq d.sq 1).conjTranspose * rot2 d.cq d.sq 1 = 1 ∧ !![d.r11, d.r12; 0, d.r22] * rot2 d.cq d.sq 1 = !![a11, a12; a21, a22] := by
  intro d
  obtain ⟨h1, h2, h3, h4, h5⟩ := decomposeRQ2_spec a11 a12 a21 a22
  refine ⟨rot2_unitary _ _ _ h1 (by simp), ?_⟩
  ext i j
  fin_cases i <;> fin_cases j <;> simp [rot2, Matrix.mul_apply, Fin.sum_univ_two, -RCLike.star_def]
  · exact h2.symm
  · rw [← mul_neg]; exact h3.symm
  · exact h4.symm
  · exact h5.symm

/-- C41: `DecomposeScaledOrthogonal2x2` splits every nonzero matrix with orthogonal columns into a unitary matrix and nonnegative factors. -/
theorem C41_scaled_orthogonal (one : 𝕜) (hone : ‖one‖ = 1) (M : Matrix (Fin 2) (Fin 2) 𝕜) (hM : IsDiag2 (M.conjTranspose * M)) (h0 : M ≠ 0) :
    let d := scaledOrthogonal2 one (M 0 0) (M 0 1) (M 1 0) (M 1 1)
    (rot2 d.1 d.2.1 d.2.2.1).conjTranspose * rot2 d.1 d.2.1 d.2.2.1 = 1 ∧ 0 ≤ d.2.2.2.1 ∧ 0 ≤ d.2.2.2.2 ∧
    rot2 d.1 d.2.1 d.2.2.1 * Matrix.diagonal ![((d.2.2.2.1 : ℝ) : 𝕜), ((d.2.2.2.2 : ℝ) : 𝕜)] = M := by
  intro d
  have ho : star (M 0 0) * M 0 1 + star (M 1 0) * M 1 1 = 0 := by
    have := hM.1
    simpa [Matrix.mul_apply, Fin.sum_univ_two, Matrix.conjTranspose_apply, -RCLike.star_def] using this
  have hne : M 0 0 ≠ 0 ∨ M 0 1 ≠ 0 ∨ M 1 0 ≠ 0 ∨ M 1 1 ≠ 0 := by
    by_contra hc
    push Not at hc
    apply h0
    ext i j
    fin_cases i <;> fin_cases j <;> simp [hc]
  obtain ⟨h1, h2, h3, h4, h5, h6, h7, h8⟩ := scaledOrthogonal2_spec one _ _ _ _ hone ho hne
  refine ⟨rot2_unitary _ _ _ h1 h2, h3, h4, ?_⟩
  ext i j
  fin_cases i <;> fin_cases j <;> simp [rot2, Matrix.mul_apply, Matrix.diagonal, -RCLike.star_def]
  · exact h5.symm
  · rw [h7]; ring
  · exact h6.symm
  · rw [h8]

/-- C41: `DecomposeSVD2x2` decomposes every 2x2 matrix: `U` and `V` are unitary, the singular values are nonnegative, `U * S * V` is the matrix,
and `V` turns by at most an eighth of a turn. -/
theorem C41_svd (zs : ZeroSigns 𝕜) (A : Matrix (Fin 2) (Fin 2) 𝕜) :
    let d := decomposeSVD2 zs (A 0 0) (A 0 1) (A 1 0) (A 1 1)
    (rot2 d.cu d.su d.det).conjTranspose * rot2 d.cu d.su d.det = 1 ∧ (rot2 d.cv d.sv 1).conjTranspose * rot2 d.cv d.sv 1 = 1 ∧
    0 ≤ d.s11 ∧ 0 ≤ d.s22 ∧ ‖d.sv‖ ≤ ‖d.cv‖ ∧ RCLike.im d.cv = 0 ∧ 0 ≤ RCLike.re d.cv ∧
    rot2 d.cu d.su d.det * Matrix.diagonal ![((d.s11 : ℝ) : 𝕜), ((d.s22 : ℝ) : 𝕜)] * rot2 d.cv d.sv 1 = A := by
  intro d
  have hd : d = decomposeSVD2 zs (A 0 0) (A 0 1) (A 1 0) (A 1 1) := rfl
  clear_value d
  unfold decomposeSVD2 at hd
  simp only at hd
  by_cases h0 : max (max (scaleElt (A 0 0)) (scaleElt (A 0 1))) (max (scaleElt (A 1 0)) (scaleElt (A 1 1))) = 0
  · rw [if_pos h0] at hd
    have hz : ∀ x : ℝ, x ≤ max (max (scaleElt (A 0 0)) (scaleElt (A 0 1))) (max (scaleElt (A 1 0)) (scaleElt (A 1 1))) → x ≤ 0 :=
      fun x hx => h0 ▸ hx
    have z1 : A 0 0 = 0 := (scaleElt_eq_zero _).1 (le_antisymm (hz _ (by simp)) (scaleElt_nonneg _))
    have z2 : A 0 1 = 0 := (scaleElt_eq_zero _).1 (le_antisymm (hz _ (by simp)) (scaleElt_nonneg _))
    have z3 : A 1 0 = 0 := (scaleElt_eq_zero _).1 (le_antisymm (hz _ (by simp)) (scaleElt_nonneg _))
    have z4 : A 1 1 = 0 := (scaleElt_eq_zero _).1 (le_antisymm (hz _ (by simp)) (scaleElt_nonneg _))
    subst hd
    have hu := rot2_unitary (1 : 𝕜) 0 1 (by simp) (by simp)
    refine ⟨hu, hu, le_refl _, le_refl _, by simp, by simp, by simp, ?_⟩
    rw [rot_diag_rot]
    ext i j
    fin_cases i <;> fin_cases j <;> simp [z1, z2, z3, z4]
  · rw [if_neg h0] at hd
    have hsc : 0 < max (max (scaleElt (A 0 0)) (scaleElt (A 0 1))) (max (scaleElt (A 1 0)) (scaleElt (A 1 1))) :=
      lt_of_le_of_ne (le_max_of_le_left (le_max_of_le_left (scaleElt_nonneg _))) (Ne.symm h0)
    have hne : A 0 0 ≠ 0 ∨ A 0 1 ≠ 0 ∨ A 1 0 ≠ 0 ∨ A 1 1 ≠ 0 := by
      by_contra hc
      push Not at hc
      apply h0
      rw [hc.1, hc.2.1, hc.2.2.1, hc.2.2.2, (scaleElt_eq_zero (0 : 𝕜)).2 rfl]; simp
    set sc := max (max (scaleElt (A 0 0)) (scaleElt (A 0 1))) (max (scaleElt (A 1 0)) (scaleElt (A 1 1)))
    clear_value sc
    have hscK : ((sc : ℝ) : 𝕜) ≠ 0 := by exact_mod_cast hsc.ne'
    have ea : ∀ i j, A i j = (sc : 𝕜) * (A i j / (sc : 𝕜)) := fun i j => by field_simp
    have hneB : A 0 0 / (sc : 𝕜) ≠ 0 ∨ A 0 1 / (sc : 𝕜) ≠ 0 ∨ A 1 0 / (sc : 𝕜) ≠ 0 ∨ A 1 1 / (sc : 𝕜) ≠ 0 := by
      rcases hne with h | h | h | h
      · exact Or.inl (div_ne_zero h hscK)
      · exact Or.inr (Or.inl (div_ne_zero h hscK))
      · exact Or.inr (Or.inr (Or.inl (div_ne_zero h hscK)))
      · exact Or.inr (Or.inr (Or.inr (div_ne_zero h hscK)))
    have e00 := ea 0 0; have e01 := ea 0 1; have e10 := ea 1 0; have e11 := ea 1 1
    generalize A 0 0 / (sc : 𝕜) = b11 at *
    generalize A 0 1 / (sc : 𝕜) = b12 at *
    generalize A 1 0 / (sc : 𝕜) = b21 at *
    generalize A 1 1 / (sc : 𝕜) = b22 at *
    obtain ⟨q0, q1, q2, q3, q4⟩ := decomposeRQ2_spec b11 b12 b21 b22
    generalize decomposeRQ2 b11 b12 b21 b22 = rq at *
    obtain ⟨t1, t2⟩ := diagonalizeTriangular_spec zs.neg rq.r11 rq.r12 rq.r22
    generalize diagonalizeTriangular zs.neg rq.r11 rq.r12 rq.r22 = v1 at *
    have hun : star (star rq.cq * v1.1 + star rq.sq * v1.2) * (star rq.cq * v1.1 + star rq.sq * v1.2) +
        star (-rq.sq * v1.1 + rq.cq * v1.2) * (-rq.sq * v1.1 + rq.cq * v1.2) = 1 := by
      simp only [star_add, star_mul', star_neg, star_star]
      linear_combination (star v1.1 * v1.1 + star v1.2 * v1.2) * q0 + t1
    have hor : orthOf b11 b12 b21 b22 (star rq.cq * v1.1 + star rq.sq * v1.2) (-rq.sq * v1.1 + rq.cq * v1.2) = 0 := by
      have k1 : b11 * (star rq.cq * v1.1 + star rq.sq * v1.2) + b12 * (-rq.sq * v1.1 + rq.cq * v1.2) = rq.r11 * v1.1 + rq.r12 * v1.2 := by
        rw [q1, q2]; linear_combination (rq.r11 * v1.1 + rq.r12 * v1.2) * q0
      have k2 : b11 * -star (-rq.sq * v1.1 + rq.cq * v1.2) + b12 * star (star rq.cq * v1.1 + star rq.sq * v1.2) =
          rq.r11 * -star v1.2 + rq.r12 * star v1.1 := by
        rw [q1, q2]
        simp only [star_add, star_mul', star_neg, star_star]
        linear_combination (rq.r11 * -star v1.2 + rq.r12 * star v1.1) * q0
      have k3 : b21 * (star rq.cq * v1.1 + star rq.sq * v1.2) + b22 * (-rq.sq * v1.1 + rq.cq * v1.2) = 0 * v1.1 + rq.r22 * v1.2 := by
        rw [q3, q4]; linear_combination (rq.r22 * v1.2) * q0
      have k4 : b21 * -star (-rq.sq * v1.1 + rq.cq * v1.2) + b22 * star (star rq.cq * v1.1 + star rq.sq * v1.2) =
          0 * -star v1.2 + rq.r22 * star v1.1 := by
        rw [q3, q4]
        simp only [star_add, star_mul', star_neg, star_star]
        linear_combination (rq.r22 * star v1.1) * q0
      rw [orthOf, k1, k2, k3, k4]
      exact t2
    generalize star rq.cq * v1.1 + star rq.sq * v1.2 = cv at *
    generalize -rq.sq * v1.1 + rq.cq * v1.2 = sv at *
    obtain ⟨m1, m2, m3, m4⟩ := minimizeRotation_spec cv sv hun
    have m5 := m4 _ _ _ _ hor
    have m6 : 0 ≤ max ‖cv‖ ‖sv‖ := le_max_of_le_left (norm_nonneg _)
    generalize minimizeRotation cv sv = v at *
    have hne' : b11 * v.1 + b12 * v.2 ≠ 0 ∨ b11 * -star v.2 + b12 * star v.1 ≠ 0 ∨ b21 * v.1 + b22 * v.2 ≠ 0 ∨
        b21 * -star v.2 + b22 * star v.1 ≠ 0 := by
      by_contra hc
      push Not at hc
      obtain ⟨c1, c2, c3, c4⟩ := hc
      have d1 : b11 = 0 := by linear_combination (star v.1) * c1 - v.2 * c2 - b11 * m1
      have d2 : b12 = 0 := by linear_combination (star v.2) * c1 + v.1 * c2 - b12 * m1
      have d3 : b21 = 0 := by linear_combination (star v.1) * c3 - v.2 * c4 - b21 * m1
      have d4 : b22 = 0 := by linear_combination (star v.2) * c3 + v.1 * c4 - b22 * m1
      rcases hneB with h | h | h | h <;> contradiction
    obtain ⟨o1, o2, o3, o4, o5, o6, o7, o8⟩ := scaledOrthogonal2_spec zs.one _ _ _ _ zs.norm_one m5 hne'
    generalize scaledOrthogonal2 zs.one (b11 * v.1 + b12 * v.2) (b11 * -star v.2 + b12 * star v.1)
      (b21 * v.1 + b22 * v.2) (b21 * -star v.2 + b22 * star v.1) = us at *
    subst hd
    refine ⟨rot2_unitary _ _ _ o1 o2, rot2_unitary _ _ _ ?_ (by simp), mul_nonneg hsc.le o3, mul_nonneg hsc.le o4, ?_, ?_, ?_, ?_⟩
    · show star (star v.1) * star v.1 + star (-v.2) * -v.2 = 1
      rw [star_star, star_neg]; linear_combination m1
    · show ‖-v.2‖ ≤ ‖star v.1‖
      rw [norm_neg, norm_star]; exact m3
    · show RCLike.im (star v.1) = 0
      rw [m2, star_ofReal_K, RCLike.ofReal_im]
    · show 0 ≤ RCLike.re (star v.1)
      rw [m2, star_ofReal_K, RCLike.ofReal_re]; exact m6
    · rw [rot_diag_rot]
      ext i j
      fin_cases i <;> fin_cases j <;> simp [-RCLike.star_def]
      · rw [e00]
        linear_combination (-(sc : 𝕜) * star v.1) * o5 + (sc : 𝕜) * v.2 * o7 + (sc : 𝕜) * b11 * m1
      · rw [e01]
        linear_combination (-(sc : 𝕜) * star v.2) * o5 - (sc : 𝕜) * v.1 * o7 + (sc : 𝕜) * b12 * m1
      · rw [e10]
        linear_combination (-(sc : 𝕜) * star v.1) * o6 + (sc : 𝕜) * v.2 * o8 + (sc : 𝕜) * b21 * m1
      · rw [e11]
        linear_combination (-(sc : 𝕜) * star v.2) * o6 - (sc : 𝕜) * v.1 * o8 + (sc : 𝕜) * b22 * m1

/-! ## The hypotheses can be met -/

/-- A rotation with a larger sine than cosine. -/
example : (rot2 (3 / 5 : ℝ) (4 / 5) 1).conjTranspose * rot2 (3 / 5 : ℝ) (4 / 5) 1 = 1 :=
  rot2_unitary _ _ _ (by norm_num) (by simp)

/-- Orthogonal columns that are not unit vectors, with a negative determinant. -/
example : IsDiag2 ((!![3, 8; 4, -6] : Matrix (Fin 2) (Fin 2) ℝ).conjTranspose * !![3, 8; 4, -6]) ∧
    (!![3, 8; 4, -6] : Matrix (Fin 2) (Fin 2) ℝ) ≠ 0 := by
  refine ⟨⟨?_, ?_⟩, ?_⟩
  · simp [Matrix.mul_apply, Fin.sum_univ_two, Matrix.conjTranspose_apply]; norm_num
  · simp [Matrix.mul_apply, Fin.sum_univ_two, Matrix.conjTranspose_apply]; norm_num
  · intro h; simpa using congrFun (congrFun h 0) 0

/-- The signs of zeros of a complex computation. -/
example : ZeroSigns ℂ := ⟨true, 1, by simp⟩

/-- The signs of zeros of a real computation where the zero is negative. -/
example : ZeroSigns ℝ := ⟨true, -1, by simp⟩

end Mathter.Props
