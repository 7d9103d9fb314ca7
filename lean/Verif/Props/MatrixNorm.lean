import Mathlib.Analysis.Complex.Basic
import Mathlib.Algebra.BigOperators.Field
import Mathlib.Algebra.Order.BigOperators.Ring.Finset
import Verif.Model.MatrixNorm

/-! # Property C32, norms -/

namespace Mathter.Props
open Mathter
universe u
variable {𝕜 : Type u} [RCLike 𝕜] {r n : ℕ}

/-- C32: `NormSquared` is the sum of squared magnitudes and `Norm` its square root. -/
theorem C32_norm (m : Matrix (Fin r) (Fin n) 𝕜) :
    matNormSquared m = ∑ i, ∑ j, ‖m i j‖ ^ 2 ∧ matNorm m = Real.sqrt (∑ i, ∑ j, ‖m i j‖ ^ 2) := by
  have : matNormSquared m = ∑ i, ∑ j, ‖m i j‖ ^ 2 := by
    unfold matNormSquared
    refine Finset.sum_congr rfl fun i _ => Finset.sum_congr rfl fun j _ => ?_
    rw [RCLike.star_def, RCLike.mul_conj]
    norm_cast
  exact ⟨this, by rw [matNorm, this]⟩

/-- C32: the norm vanishes exactly on the zero matrix. -/
theorem C32_norm_zero (m : Matrix (Fin r) (Fin n) 𝕜) : matNorm m = 0 ↔ m = 0 := by
  rw [(C32_norm m).2, Real.sqrt_eq_zero (Finset.sum_nonneg fun i _ => Finset.sum_nonneg fun j _ => by positivity),
    Finset.sum_eq_zero_iff_of_nonneg (fun i _ => Finset.sum_nonneg fun j _ => by positivity)]
  constructor
  · intro h
    ext i j
    have := (Finset.sum_eq_zero_iff_of_nonneg (fun j _ => by positivity)).1 (h i (Finset.mem_univ i)) j (Finset.mem_univ j)
    simpa using this
  · rintro rfl i _; simp

private theorem le_maxElemR (m : Matrix (Fin (r + 1)) (Fin (n + 1)) ℝ) (i j) : m i j ≤ maxElemR m :=
  Finset.le_sup' (fun ij : Fin (r + 1) × Fin (n + 1) => m ij.1 ij.2) (Finset.mem_univ (i, j))

/-- C32: `NormPrecise` of a real matrix equals `Norm`. -/
theorem C32_norm_precise_real (m : Matrix (Fin (r + 1)) (Fin (n + 1)) ℝ) : normPreciseReal m = matNorm m := by
  rw [(C32_norm m).2]
  unfold normPreciseReal
  simp only [Matrix.of_apply]
  set M := maxElemR (Matrix.of fun i j => |m i j|) with hM
  have hle : ∀ i j, |m i j| ≤ M := fun i j => le_maxElemR (Matrix.of fun i j => |m i j|) i j
  clear_value M
  have h0 : 0 ≤ M := (abs_nonneg _).trans (hle 0 0)
  split
  · rename_i h
    have : ∀ i j, m i j = 0 := fun i j => abs_eq_zero.1 (le_antisymm (h ▸ hle i j) (abs_nonneg _))
    simp [this]
  · rename_i h
    have hp : 0 < M := lt_of_le_of_ne h0 (Ne.symm h)
    have : ∀ i j, |m i j| / M * (|m i j| / M) = ‖m i j‖ ^ 2 / M ^ 2 := by
      intro i j; rw [Real.norm_eq_abs]; field_simp
    simp only [this, ← Finset.sum_div]
    rw [Real.sqrt_div' _ (by positivity), Real.sqrt_sq h0, div_mul_cancel₀ _ h]

/-- C32: `NormPrecise` of a complex matrix equals `Norm`. -/
theorem C32_norm_precise_complex (m : Matrix (Fin (r + 1)) (Fin (n + 1)) ℂ) : normPreciseComplex m = matNorm m := by
  rw [(C32_norm m).2]
  unfold normPreciseComplex
  simp only [Matrix.of_apply]
  set M := max (maxElemR (Matrix.of fun i j => |(m i j).re|)) (maxElemR (Matrix.of fun i j => |(m i j).im|)) with hM
  have hre : ∀ i j, |(m i j).re| ≤ M := fun i j => (le_maxElemR (Matrix.of fun i j => |(m i j).re|) i j).trans (le_max_left _ _)
  have him : ∀ i j, |(m i j).im| ≤ M := fun i j => (le_maxElemR (Matrix.of fun i j => |(m i j).im|) i j).trans (le_max_right _ _)
  clear_value M
  have h0 : 0 ≤ M := (abs_nonneg _).trans (hre 0 0)
  split
  · rename_i h
    have : ∀ i j, m i j = 0 := fun i j => Complex.ext (abs_eq_zero.1 (le_antisymm (h ▸ hre i j) (abs_nonneg _)))
      (abs_eq_zero.1 (le_antisymm (h ▸ him i j) (abs_nonneg _)))
    simp [this]
  · rename_i h
    have hp : 0 < M := lt_of_le_of_ne h0 (Ne.symm h)
    have : ∀ i j, |(m i j).re| / M * (|(m i j).re| / M) + |(m i j).im| / M * (|(m i j).im| / M) = ‖m i j‖ ^ 2 / M ^ 2 := by
      intro i j
      rw [← Complex.normSq_eq_norm_sq, Complex.normSq_apply, ← abs_mul_abs_self (m i j).re, ← abs_mul_abs_self (m i j).im]
      field_simp
    simp only [this, ← Finset.sum_div]
    rw [Real.sqrt_div' _ (by positivity), Real.sqrt_sq h0, div_mul_cancel₀ _ h]

/-- C32: no intermediate square of `NormPrecise` exceeds 1, and their sum is at least 1: neither overflow nor total underflow. -/
theorem C32_norm_precise_range (m : Matrix (Fin (r + 1)) (Fin (n + 1)) ℝ) (h : m ≠ 0) :
    (∀ i j, |m i j| / maxElemR (Matrix.of fun i j => |m i j|) ≤ 1) ∧ ∃ i j, |m i j| / maxElemR (Matrix.of fun i j => |m i j|) = 1 := by
  obtain ⟨ij, -, hij⟩ := Finset.exists_mem_eq_sup' Finset.univ_nonempty
    (fun ij : Fin (r + 1) × Fin (n + 1) => (Matrix.of fun i j => |m i j| : Matrix _ _ ℝ) ij.1 ij.2)
  have hle := le_maxElemR (Matrix.of fun i j => |m i j|)
  have hM : maxElemR (Matrix.of fun i j => |m i j|) = |m ij.1 ij.2| := hij
  have hne : maxElemR (Matrix.of fun i j => |m i j|) ≠ 0 := by
    intro h0
    apply h
    ext i j
    exact abs_eq_zero.1 (le_antisymm (h0 ▸ hle i j) (abs_nonneg _))
  refine ⟨fun i j => div_le_one_of_le₀ (hle i j) ((abs_nonneg _).trans (hle 0 0)), ij.1, ij.2, ?_⟩
  rw [← hM, div_self hne]

example : matNorm (!![3, 4] : Matrix (Fin 1) (Fin 2) ℝ) = 5 := by
  rw [(C32_norm _).2, Real.sqrt_eq_iff_mul_self_eq (Finset.sum_nonneg fun i _ => Finset.sum_nonneg fun j _ => by positivity) (by norm_num)]
  norm_num [Fin.sum_univ_succ]
example : (!![3, 4] : Matrix (Fin 1) (Fin 2) ℝ) ≠ 0 := fun h => by simpa using congrFun (congrFun h 0) 0

end Mathter.Props
