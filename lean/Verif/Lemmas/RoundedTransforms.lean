import Mathlib.LinearAlgebra.CrossProduct
import Mathlib.Analysis.SpecialFunctions.Trigonometric.Bounds
import Verif.Model.RoundedTransforms
import Verif.Lemmas.Transforms
import Verif.Lemmas.RoundedAnnihilate
import Verif.Lemmas.RoundedConversion

/-!
# Rounding errors of transform builders
-/

namespace Mathter.Fl
open Mathter
variable {fl cast conv cosF sinF : ℝ → ℝ} {u e d : ℝ}

/-- The matrix of a rotation by an angle with the given cosine and sine around `a`, as the code writes it down. -/
def rodCS (C S : ℝ) (a : Fin 3 → ℝ) : Matrix (Fin 3) (Fin 3) ℝ :=
  !![C + (1 - C) * a 0 * a 0, -S * a 2 + (1 - C) * a 0 * a 1, S * a 1 + (1 - C) * a 0 * a 2;
     S * a 2 + (1 - C) * a 1 * a 0, C + (1 - C) * a 1 * a 1, -S * a 0 + (1 - C) * a 1 * a 2;
     -S * a 1 + (1 - C) * a 2 * a 0, S * a 0 + (1 - C) * a 2 * a 1, C + (1 - C) * a 2 * a 2]

open scoped Matrix in
theorem rodCS_mulVec (C S : ℝ) (a v : Fin 3 → ℝ) : (rodCS C S a).mulVec v = C • v + S • (a ⨯₃ v) + ((1 - C) * (a ⬝ᵥ v)) • a := by
  funext i
  rw [Matrix.mulVec, dotProduct, Fin.sum_univ_three, cross_apply, dotProduct, Fin.sum_univ_three]
  fin_cases i <;> simp [rodCS, Matrix.vecHead, Matrix.vecTail] <;> ring

/-- Errors of the elements of a matrix and the mapped vector. -/
theorem mulVec_err {n : ℕ} {A B : Matrix (Fin n) (Fin n) ℝ} {E : ℝ} (h : ∀ i j, |A i j - B i j| ≤ E) (v : Fin n → ℝ) (i : Fin n) :
    |A.mulVec v i - B.mulVec v i| ≤ E * ∑ j, |v j| := by
  rw [Matrix.mulVec, Matrix.mulVec, dotProduct, dotProduct, ← Finset.sum_sub_distrib, Finset.mul_sum]
  refine (Finset.abs_sum_le_sum_abs _ _).trans (Finset.sum_le_sum fun j _ => ?_)
  rw [← sub_mul, abs_mul]
  exact mul_le_mul_of_nonneg_right (h i j) (abs_nonneg _)

theorem IsTrig.nonneg (h : IsTrig e cosF sinF) : 0 ≤ e := (abs_nonneg _).trans (h 0).1

/-- The error of the converted angle is added to the error of the functions. -/
theorem IsTrig.convert (h : IsTrig e cosF sinF) {a : ℝ} (hd : |conv a - a| ≤ d) :
    |cosF (conv a) - Real.cos a| ≤ e + d ∧ |sinF (conv a) - Real.sin a| ≤ e + d := by
  have h1 := Real.abs_cos_sub_cos_le (conv a) a
  have h2 := Real.abs_sin_sub_sin_le (conv a) a
  obtain ⟨h3, h4⟩ := h (conv a)
  constructor
  · exact (abs_sub_le _ (Real.cos (conv a)) _).trans (by linarith)
  · exact (abs_sub_le _ (Real.sin (conv a)) _).trans (by linarith)

theorem pow4_le (hu : 0 ≤ u) (hu2 : u ≤ 1 / 100) : (1 + u) ^ 4 - 1 ≤ 407 / 100 * u := by
  have h2 : u * u ≤ 1 / 100 * u := mul_le_mul_of_nonneg_right hu2 hu
  have h3 : u * (u * u) ≤ 1 / 100 * (u * u) := mul_le_mul_of_nonneg_right hu2 (mul_self_nonneg u)
  have h4 : u * (u * (u * u)) ≤ 1 / 100 * (u * (u * u)) := mul_le_mul_of_nonneg_right hu2 (mul_nonneg hu (mul_self_nonneg u))
  nlinarith

/-- One element of the matrix of `RotationAxisAngle`. -/
theorem axis_angle_entry (h : Rounding fl u) (hu2 : u ≤ 1 / 100) {ps : ℝ → ℝ → ℝ → ℝ → ℝ} (hps : IsProdSum fl ps) {madd : ℝ → ℝ → ℝ → ℝ}
    (hma : IsMulAdd fl madd) {C S c0 s0 E η ai aj ni nj x x0 δ : ℝ} (hE : E ≤ 1 / 100) (hη : η ≤ 1 / 100) (hC : |C - c0| ≤ E) (hS : |S - s0| ≤ E)
    (hc0 : |c0| ≤ 1) (hs0 : |s0| ≤ 1) (hi : |ai - ni| ≤ η) (hj : |aj - nj| ≤ η) (hni : |ni| ≤ 1) (hnj : |nj| ≤ 1) (hx : |x - x0| ≤ η) (hx0 : |x0| ≤ 1)
    (hδ : |δ| ≤ 1) :
    |madd (fl (fl (1 - C) * ai)) aj (ps C δ S x) - (c0 * δ + s0 * x0 + (1 - c0) * ni * nj)| ≤ 17 * u + 4 * E + 6 * η := by
  have hu := h.u_nonneg
  have hE0 : 0 ≤ E := (abs_nonneg _).trans hC
  have hη0 : 0 ≤ η := (abs_nonneg _).trans hi
  have n1 := (((Near.exact (u := u) (1 - C)).round h).mul h (Near.exact ai)).madd h hma (m := 3) (by norm_num) (Near.exact aj)
    ((near_psum h hps C δ S x).mono h (by norm_num : 2 ≤ 3))
  have aC : |C| ≤ 1 + E := by have := abs_sub_abs_le_abs_sub C c0; linarith
  have aS : |S| ≤ 1 + E := by have := abs_sub_abs_le_abs_sub S s0; linarith
  have aai : |ai| ≤ 1 + η := by have := abs_sub_abs_le_abs_sub ai ni; linarith
  have aaj : |aj| ≤ 1 + η := by have := abs_sub_abs_le_abs_sub aj nj; linarith
  have ax : |x| ≤ 1 + η := by have := abs_sub_abs_le_abs_sub x x0; linarith
  have a1C : |1 - C| ≤ 2 + E := by have := abs_sub (1 : ℝ) C; rw [abs_one] at this; linarith
  have m1 : |ai| * |aj| ≤ 10201 / 10000 := by
    have := mul_le_mul (show |ai| ≤ 101 / 100 by linarith) (show |aj| ≤ 101 / 100 by linarith) (abs_nonneg _) (by norm_num)
    linarith
  have m2 : |S| * |x| ≤ 10201 / 10000 := by
    have := mul_le_mul (show |S| ≤ 101 / 100 by linarith) (show |x| ≤ 101 / 100 by linarith) (abs_nonneg _) (by norm_num)
    linarith
  have m3 : |C| * |δ| ≤ 101 / 100 := by
    have := mul_le_mul (show |C| ≤ 101 / 100 by linarith) hδ (abs_nonneg _) (by norm_num)
    linarith
  have m4 : |1 - C| * |ai| * |aj| ≤ 206 / 100 := by
    have := mul_le_mul (show |1 - C| ≤ 201 / 100 by linarith) m1 (by positivity) (by norm_num)
    rw [mul_assoc]; linarith
  have hM : |1 - C| * |ai| * |aj| + (|C| * |δ| + |S| * |x|) ≤ 41 / 10 := by linarith
  have hp := pow4_le hu hu2
  have e1 : |madd (fl (fl (1 - C) * ai)) aj (ps C δ S x) - ((1 - C) * ai * aj + (C * δ + S * x))| ≤ 17 * u := by
    refine n1.err.trans ?_
    have hg : 0 ≤ (1 + u) ^ 4 - 1 := by linarith [h.one_le 4]
    calc _ ≤ ((1 + u) ^ 4 - 1) * (41 / 10) := mul_le_mul_of_nonneg_left hM hg
      _ ≤ 407 / 100 * u * (41 / 10) := mul_le_mul_of_nonneg_right hp (by norm_num)
      _ ≤ 17 * u := by linarith
  have e2 : |((1 - C) * ai * aj + (C * δ + S * x)) - (c0 * δ + s0 * x0 + (1 - c0) * ni * nj)| ≤ 4 * E + 6 * η := by
    have k1 : |(C - c0) * δ| ≤ E := by
      rw [abs_mul]; exact (mul_le_mul hC hδ (abs_nonneg _) hE0).trans (by linarith)
    have k2 : |(S - s0) * x| ≤ 101 / 100 * E := by
      rw [abs_mul]; exact (mul_le_mul hS (show |x| ≤ 101 / 100 by linarith) (abs_nonneg _) hE0).trans (by linarith)
    have k3 : |s0 * (x - x0)| ≤ η := by
      rw [abs_mul]; exact (mul_le_mul hs0 hx (abs_nonneg _) (by norm_num)).trans (by linarith)
    have k4 : |(C - c0) * (ai * aj)| ≤ 10201 / 10000 * E := by
      rw [abs_mul, abs_mul]; exact (mul_le_mul hC m1 (by positivity) hE0).trans (by linarith)
    have k5 : |(ai - ni) * aj| ≤ 101 / 100 * η := by
      rw [abs_mul]; exact (mul_le_mul hi (show |aj| ≤ 101 / 100 by linarith) (abs_nonneg _) hη0).trans (by linarith)
    have k6 : |ni * (aj - nj)| ≤ η := by
      rw [abs_mul]; exact (mul_le_mul hni hj (abs_nonneg _) (by norm_num)).trans (by linarith)
    have k7 : |(1 - c0) * ((ai - ni) * aj + ni * (aj - nj))| ≤ 2 * (201 / 100 * η) := by
      rw [abs_mul]
      have a1 : |1 - c0| ≤ 2 := by have := abs_sub (1 : ℝ) c0; rw [abs_one] at this; linarith
      exact mul_le_mul a1 ((abs_add_le _ _).trans (by linarith)) (abs_nonneg _) (by norm_num)
    have e : ((1 - C) * ai * aj + (C * δ + S * x)) - (c0 * δ + s0 * x0 + (1 - c0) * ni * nj) =
        (C - c0) * δ + (S - s0) * x + s0 * (x - x0) - (C - c0) * (ai * aj) + (1 - c0) * ((ai - ni) * aj + ni * (aj - nj)) := by ring
    rw [e]
    rw [abs_le] at *
    constructor <;> linarith [k1.1, k1.2, k2.1, k2.2, k3.1, k3.2, k4.1, k4.2, k7.1, k7.2]
  exact (abs_sub_le _ _ _).trans (by linarith)

/-! ## Products of rotations -/

theorem row_unit {A : Matrix (Fin 3) (Fin 3) ℝ} (h : A * A.transpose = 1) (i : Fin 3) : A i 0 ^ 2 + A i 1 ^ 2 + A i 2 ^ 2 = 1 := by
  have := congrFun (congrFun h i) i
  rw [Matrix.mul_apply, Fin.sum_univ_three, Matrix.one_apply_eq] at this
  simp only [Matrix.transpose_apply] at this
  linarith

theorem col_unit {A : Matrix (Fin 3) (Fin 3) ℝ} (h : A * A.transpose = 1) (i : Fin 3) : A 0 i ^ 2 + A 1 i ^ 2 + A 2 i ^ 2 = 1 := by
  have h' : A.transpose * A = 1 := mul_eq_one_comm.1 h
  have := congrFun (congrFun h' i) i
  rw [Matrix.mul_apply, Fin.sum_univ_three, Matrix.one_apply_eq] at this
  simp only [Matrix.transpose_apply] at this
  linarith

theorem orth_mul {A B : Matrix (Fin 3) (Fin 3) ℝ} (hA : A * A.transpose = 1) (hB : B * B.transpose = 1) : (A * B) * (A * B).transpose = 1 := by
  rw [Matrix.transpose_mul, Matrix.mul_assoc, ← Matrix.mul_assoc B, hB, Matrix.one_mul, hA]

theorem orth_transpose {A : Matrix (Fin 3) (Fin 3) ℝ} (hA : A * A.transpose = 1) : A.transpose * A.transpose.transpose = 1 := by
  rw [Matrix.transpose_transpose]; exact mul_eq_one_comm.1 hA

theorem abs_sum_le_two {a b c : ℝ} (h : a ^ 2 + b ^ 2 + c ^ 2 = 1) : |a| + |b| + |c| ≤ 2 := by
  rw [← sq_abs a, ← sq_abs b, ← sq_abs c] at h
  nlinarith [sq_nonneg (|a| - |b|), sq_nonneg (|b| - |c|), sq_nonneg (|a| - |c|), abs_nonneg a, abs_nonneg b, abs_nonneg c]

theorem abs_prod_le_one {a b c x y z : ℝ} (h : a ^ 2 + b ^ 2 + c ^ 2 = 1) (h' : x ^ 2 + y ^ 2 + z ^ 2 = 1) : |a| * |x| + |b| * |y| + |c| * |z| ≤ 1 := by
  rw [← sq_abs a, ← sq_abs b, ← sq_abs c] at h
  rw [← sq_abs x, ← sq_abs y, ← sq_abs z] at h'
  nlinarith [sq_nonneg (|a| - |x|), sq_nonneg (|b| - |y|), sq_nonneg (|c| - |z|)]

/-- The product of two matrices that are close to rotations. -/
theorem prod_near {mul : Matrix (Fin 3) (Fin 3) ℝ → Matrix (Fin 3) (Fin 3) ℝ → Matrix (Fin 3) (Fin 3) ℝ} (hu : 0 ≤ u) (hm : IsMatMul u 3 mul)
    {A B A0 B0 : Matrix (Fin 3) (Fin 3) ℝ} (hA0 : A0 * A0.transpose = 1) (hB0 : B0 * B0.transpose = 1) {E1 E2 : ℝ}
    (hA : ∀ i j, |A i j - A0 i j| ≤ E1) (hB : ∀ i j, |B i j - B0 i j| ≤ E2) (i j : Fin 3) :
    |mul A B i j - (A0 * B0) i j| ≤ ((1 + u) ^ 3 - 1) * (1 + (2 * (E1 + E2) + 3 * (E1 * E2))) + (2 * (E1 + E2) + 3 * (E1 * E2)) := by
  have hE1 : 0 ≤ E1 := (abs_nonneg _).trans (hA 0 0)
  have hE2 : 0 ≤ E2 := (abs_nonneg _).trans (hB 0 0)
  have hg : 0 ≤ (1 + u) ^ 3 - 1 := by have : (1 : ℝ) ≤ (1 + u) ^ 3 := one_le_pow₀ (by linarith); linarith
  have r := abs_sum_le_two (row_unit hA0 i)
  have c := abs_sum_le_two (col_unit hB0 j)
  have p := abs_prod_le_one (row_unit hA0 i) (col_unit hB0 j)
  have diff : ∀ q, |A i q * B q j - A0 i q * B0 q j| ≤ E2 * |A0 i q| + E1 * |B0 q j| + E1 * E2 := by
    intro q
    rw [show A i q * B q j - A0 i q * B0 q j = A0 i q * (B q j - B0 q j) + (A i q - A0 i q) * B0 q j + (A i q - A0 i q) * (B q j - B0 q j) by ring]
    refine (abs_add_le _ _).trans (add_le_add ((abs_add_le _ _).trans (add_le_add ?_ ?_)) ?_)
    · rw [abs_mul, mul_comm]; exact mul_le_mul_of_nonneg_right (hB q j) (abs_nonneg _)
    · rw [abs_mul]; exact mul_le_mul_of_nonneg_right (hA i q) (abs_nonneg _)
    · rw [abs_mul]; exact mul_le_mul (hA i q) (hB q j) (abs_nonneg _) hE1
  have d0 := diff 0
  have d1 := diff 1
  have d2 := diff 2
  have r' := mul_le_mul_of_nonneg_left r hE2
  have c' := mul_le_mul_of_nonneg_left c hE1
  have s1 : |∑ q, A i q * B q j - (A0 * B0) i j| ≤ 2 * (E1 + E2) + 3 * (E1 * E2) := by
    rw [Matrix.mul_apply, Fin.sum_univ_three, Fin.sum_univ_three]
    rw [show A i 0 * B 0 j + A i 1 * B 1 j + A i 2 * B 2 j - (A0 i 0 * B0 0 j + A0 i 1 * B0 1 j + A0 i 2 * B0 2 j) =
      (A i 0 * B 0 j - A0 i 0 * B0 0 j) + (A i 1 * B 1 j - A0 i 1 * B0 1 j) + (A i 2 * B 2 j - A0 i 2 * B0 2 j) by ring]
    refine (abs_add_le _ _).trans ((add_le_add_left (abs_add_le _ _) _).trans ?_)
    linarith
  have s2 : ∑ q, |A i q * B q j| ≤ 1 + (2 * (E1 + E2) + 3 * (E1 * E2)) := by
    rw [Fin.sum_univ_three]
    have t0 := abs_sub_abs_le_abs_sub (A i 0 * B 0 j) (A0 i 0 * B0 0 j)
    have t1 := abs_sub_abs_le_abs_sub (A i 1 * B 1 j) (A0 i 1 * B0 1 j)
    have t2 := abs_sub_abs_le_abs_sub (A i 2 * B 2 j) (A0 i 2 * B0 2 j)
    rw [abs_mul (A0 i 0)] at t0
    rw [abs_mul (A0 i 1)] at t1
    rw [abs_mul (A0 i 2)] at t2
    linarith
  have h1 := (hm A B i j).trans (mul_le_mul_of_nonneg_left s2 hg)
  exact (abs_sub_le _ (∑ q, A i q * B q j) _).trans (by linarith)

theorem pow3_le (hu : 0 ≤ u) (hu2 : u ≤ 1 / 1000) : (1 + u) ^ 3 - 1 ≤ 301 / 100 * u := by
  have h2 : u * u ≤ 1 / 1000 * u := mul_le_mul_of_nonneg_right hu2 hu
  have h3 : u * (u * u) ≤ 1 / 1000 * (u * u) := mul_le_mul_of_nonneg_right hu2 (mul_self_nonneg u)
  nlinarith

/-- Three matrices that are close to rotations. -/
theorem prod3_near {mul : Matrix (Fin 3) (Fin 3) ℝ → Matrix (Fin 3) (Fin 3) ℝ → Matrix (Fin 3) (Fin 3) ℝ} (hu : 0 ≤ u) (hu2 : u ≤ 1 / 1000)
    (hm : IsMatMul u 3 mul) {A B C A0 B0 C0 : Matrix (Fin 3) (Fin 3) ℝ} (hA0 : A0 * A0.transpose = 1) (hB0 : B0 * B0.transpose = 1)
    (hC0 : C0 * C0.transpose = 1) {E : ℝ} (hE : E ≤ 1 / 1000) (hA : ∀ i j, |A i j - A0 i j| ≤ E) (hB : ∀ i j, |B i j - B0 i j| ≤ E)
    (hC : ∀ i j, |C i j - C0 i j| ≤ E) (i j : Fin 3) : |mul (mul A B) C i j - (A0 * B0 * C0) i j| ≤ 10 * u + 11 * E := by
  have hE0 : 0 ≤ E := (abs_nonneg _).trans (hA 0 0)
  have hg : 0 ≤ (1 + u) ^ 3 - 1 := by have : (1 : ℝ) ≤ (1 + u) ^ 3 := one_le_pow₀ (by linarith); linarith
  have hp := pow3_le hu hu2
  have hEE : E * E ≤ 1 / 1000 * E := mul_le_mul_of_nonneg_right hE hE0
  have h1 : ∀ i j, |mul A B i j - (A0 * B0) i j| ≤ 303 / 100 * u + 401 / 100 * E := by
    intro i j
    refine (prod_near hu hm hA0 hB0 hA hB i j).trans ?_
    have q : 1 + (2 * (E + E) + 3 * (E * E)) ≤ 1005 / 1000 := by linarith
    have q2 := mul_le_mul hp q (by positivity) (by positivity)
    linarith
  refine (prod_near hu hm (orth_mul hA0 hB0) hC0 h1 hC i j).trans ?_
  have hF : 303 / 100 * u + 401 / 100 * E ≤ 8 / 1000 := by linarith
  have hFE : (303 / 100 * u + 401 / 100 * E) * E ≤ 8 / 1000 * E := mul_le_mul_of_nonneg_right hF hE0
  have q : 1 + (2 * (303 / 100 * u + 401 / 100 * E + E) + 3 * ((303 / 100 * u + 401 / 100 * E) * E)) ≤ 102 / 100 := by linarith
  have q0 : 0 ≤ 1 + (2 * (303 / 100 * u + 401 / 100 * E + E) + 3 * ((303 / 100 * u + 401 / 100 * E) * E)) := by positivity
  have q2 := mul_le_mul hp q q0 (by positivity)
  linarith

theorem rodCS_single_orth {c s : ℝ} (h : c ^ 2 + s ^ 2 = 1) (axis : Fin 3) :
    rodCS c s (Pi.single axis 1) * (rodCS c s (Pi.single axis 1)).transpose = 1 := by
  ext i j
  rw [Matrix.mul_apply, Fin.sum_univ_three]
  fin_cases axis <;> fin_cases i <;> fin_cases j <;> simp [rodCS, Matrix.transpose_apply] <;> first | linear_combination h | ring

end Mathter.Fl
