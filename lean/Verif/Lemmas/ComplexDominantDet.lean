import Mathlib.LinearAlgebra.Matrix.Adjugate
import Mathlib.Analysis.Complex.Basic
import Mathlib.Algebra.Order.BigOperators.Ring.Finset
import Mathlib.Tactic.Ring
import Mathlib.Tactic.Linarith
import Mathlib.Tactic.FieldSimp

/-!
# Determinants of complex diagonally dominant matrices under small changes
-/

namespace Mathter.FlC
variable {N : ℕ}

/-- Cramer's quotients of a matrix with dominant diagonal. -/
theorem cramer_dom {M : Matrix (Fin N) (Fin N) ℂ} {θ : ℝ} (hθ : θ < 1) (hd : ∀ j, (∑ i, if i = j then 0 else ‖M i j‖) ≤ θ * ‖M j j‖) (e : Fin N → ℂ)
    (j : Fin N) : (1 - θ) * ‖M j j‖ * ‖M.cramer e j‖ ≤ ‖M.det‖ * ∑ i, ‖e i‖ := by
  set y := M.cramer e with hy
  have hMy : ∀ i, ∑ q, M i q * y q = M.det * e i := fun i => by
    have := congrFun (Matrix.mulVec_cramer M e) i
    simpa [Matrix.mulVec, dotProduct] using this
  have low : ∀ i, ‖M i i‖ * ‖y i‖ - (∑ q, if q = i then 0 else ‖M i q‖ * ‖y q‖) ≤ ‖M.det‖ * ‖e i‖ := by
    intro i
    rw [← norm_mul, ← norm_mul, ← hMy i]
    have hs : ∑ q, M i q * y q = M i i * y i + ∑ q, if q = i then 0 else M i q * y q := by
      have : ∀ q, M i q * y q = (if q = i then M i q * y q else 0) + if q = i then 0 else M i q * y q := by intro q; split <;> simp
      rw [Finset.sum_congr rfl fun q _ => this q, Finset.sum_add_distrib, Finset.sum_ite_eq' Finset.univ i fun q => M i q * y q,
        if_pos (Finset.mem_univ _)]
    have hb : ‖∑ q, if q = i then 0 else M i q * y q‖ ≤ ∑ q, if q = i then 0 else ‖M i q‖ * ‖y q‖ := by
      refine (norm_sum_le _ _).trans (Finset.sum_le_sum fun q _ => ?_)
      split
      · simp
      · rw [norm_mul]
    have t := norm_sub_norm_le (M i i * y i) (-(∑ q, if q = i then 0 else M i q * y q))
    rw [norm_neg, sub_neg_eq_add, ← hs] at t
    linarith
  have hsum := Finset.sum_le_sum fun i (_ : i ∈ Finset.univ) => low i
  rw [← Finset.mul_sum, Finset.sum_sub_distrib, Finset.sum_comm] at hsum
  have hcol : ∀ q, (∑ i, if q = i then 0 else ‖M i q‖ * ‖y q‖) ≤ θ * ‖M q q‖ * ‖y q‖ := by
    intro q
    have : (∑ i, if q = i then 0 else ‖M i q‖ * ‖y q‖) = (∑ i, if i = q then 0 else ‖M i q‖) * ‖y q‖ := by
      rw [Finset.sum_mul]
      refine Finset.sum_congr rfl fun i _ => ?_
      by_cases h : q = i
      · rw [if_pos h, if_pos h.symm, zero_mul]
      · rw [if_neg h, if_neg (Ne.symm h)]
    rw [this]
    exact mul_le_mul_of_nonneg_right (hd q) (norm_nonneg _)
  have h2 := Finset.sum_le_sum fun q (_ : q ∈ Finset.univ) => hcol q
  have h3 : (1 - θ) * ‖M j j‖ * ‖y j‖ ≤ ∑ q, (1 - θ) * ‖M q q‖ * ‖y q‖ :=
    Finset.single_le_sum (f := fun q => (1 - θ) * ‖M q q‖ * ‖y q‖)
      (fun q _ => mul_nonneg (mul_nonneg (by linarith) (norm_nonneg _)) (norm_nonneg _)) (Finset.mem_univ j)
  have h4 : ∑ q, (1 - θ) * ‖M q q‖ * ‖y q‖ = (∑ q, ‖M q q‖ * ‖y q‖) - ∑ q, θ * ‖M q q‖ * ‖y q‖ := by
    rw [← Finset.sum_sub_distrib]
    exact Finset.sum_congr rfl fun q _ => by ring
  linarith

/-- Changing every column of a matrix with dominant diagonal a little changes the determinant a little. -/
theorem det_dom_perturb {A B : Matrix (Fin N) (Fin N) ℂ} {θ η θ' : ℝ} (hη : 0 ≤ η) (h0 : ∀ j, A j j ≠ 0)
    (hd : ∀ j, (∑ i, if i = j then 0 else ‖A i j‖) ≤ θ * ‖A j j‖) (hE : ∀ j, ∑ i, ‖A i j - B i j‖ ≤ η * ‖A j j‖) (hθ'0 : 0 ≤ θ') (hθ' : θ' < 1)
    (hη' : θ + η ≤ θ' * (1 - η)) : ‖B.det - A.det‖ ≤ ((1 + η / (1 - θ')) ^ N - 1) * ‖A.det‖ := by
  set δ := η / (1 - θ') with hδ
  have hδ0 : 0 ≤ δ := div_nonneg hη (by linarith)
  have hη1 : θ ≤ θ' := by
    have := mul_nonneg hθ'0 hη
    linarith
  let M : ℕ → Matrix (Fin N) (Fin N) ℂ := fun k => Matrix.of fun i j => if j.val < k then B i j else A i j
  have hdom : ∀ k j, (∑ i, if i = j then 0 else ‖M k i j‖) ≤ θ' * ‖M k j j‖ := by
    intro k j
    have ha := norm_nonneg (A j j)
    by_cases hj : j.val < k
    · have hM : ∀ i, M k i j = B i j := fun i => by simp only [M, Matrix.of_apply]; rw [if_pos hj]
      simp only [hM]
      have hEj : ∑ i, ‖A i j - B i j‖ = ‖A j j - B j j‖ + ∑ i, if i = j then 0 else ‖A i j - B i j‖ := by
        have : ∀ i, ‖A i j - B i j‖ = (if i = j then ‖A i j - B i j‖ else 0) + if i = j then 0 else ‖A i j - B i j‖ := by intro i; split <;> simp
        rw [Finset.sum_congr rfl fun i _ => this i, Finset.sum_add_distrib, Finset.sum_ite_eq' Finset.univ j fun i => ‖A i j - B i j‖,
          if_pos (Finset.mem_univ _)]
      have hB : (∑ i, if i = j then 0 else ‖B i j‖) ≤ (∑ i, if i = j then 0 else ‖A i j‖) + ∑ i, if i = j then 0 else ‖A i j - B i j‖ := by
        rw [← Finset.sum_add_distrib]
        refine Finset.sum_le_sum fun i _ => ?_
        split
        · simp
        · have := norm_sub_norm_le (B i j) (A i j)
          rw [norm_sub_rev] at this
          linarith
      have hj' := hE j
      rw [hEj] at hj'
      have hdj := hd j
      have hbj : ‖A j j‖ - ‖A j j - B j j‖ ≤ ‖B j j‖ := by
        have := norm_sub_norm_le (A j j) (B j j)
        linarith
      have hoff : 0 ≤ ∑ i, if i = j then 0 else ‖A i j - B i j‖ := Finset.sum_nonneg fun i _ => by split; exact le_rfl; exact norm_nonneg _
      have hdiag := norm_nonneg (A j j - B j j)
      have h1 : (1 - η) * ‖A j j‖ ≤ ‖B j j‖ := by linarith
      have h2 := mul_le_mul_of_nonneg_left h1 hθ'0
      have h3 := mul_le_mul_of_nonneg_right hη' ha
      have h4 : θ' * ((1 - η) * ‖A j j‖) = θ' * (1 - η) * ‖A j j‖ := by ring
      linarith
    · have hM : ∀ i, M k i j = A i j := fun i => by simp only [M, Matrix.of_apply]; rw [if_neg hj]
      simp only [hM]
      exact (hd j).trans (mul_le_mul_of_nonneg_right hη1 ha)
  have key : ∀ k, k ≤ N → ‖(M k).det - A.det‖ ≤ ((1 + δ) ^ k - 1) * ‖A.det‖ := by
    intro k
    induction k with
    | zero =>
      intro _
      have : M 0 = A := by ext i j; simp [M]
      simp [this]
    | succ k ih =>
      intro hk
      have ih' := ih (by omega)
      let κ : Fin N := ⟨k, hk⟩
      have hup : M (k + 1) = (M k).updateCol κ ((fun i => A i κ) + fun i => B i κ - A i κ) := by
        ext i j
        by_cases hj : j = κ
        · subst hj
          simp [M, κ]
        · have hjk : j.val ≠ k := fun h => hj (Fin.ext h)
          rw [Matrix.updateCol_ne hj]
          simp only [M, Matrix.of_apply]
          congr 1
          apply propext
          omega
      have hA : (M k).updateCol κ (fun i => A i κ) = M k := by
        ext i j
        by_cases hj : j = κ
        · subst hj
          simp [M, κ]
        · rw [Matrix.updateCol_ne hj]
      have hdet : (M (k + 1)).det = (M k).det + (M k).cramer (fun i => B i κ - A i κ) κ := by
        rw [hup, Matrix.det_updateCol_add, hA, Matrix.cramer_apply]
      have hcr := cramer_dom hθ' (hdom k) (fun i => B i κ - A i κ) κ
      have hκκ : M k κ κ = A κ κ := by simp [M, κ]
      have hEκ : ∑ i, ‖B i κ - A i κ‖ ≤ η * ‖A κ κ‖ := by
        simp only [norm_sub_rev (B _ κ)]
        exact hE κ
      have hpos : 0 < ‖A κ κ‖ := norm_pos_iff.2 (h0 κ)
      have h1t : 0 < 1 - θ' := by linarith
      have hc : ‖(M k).cramer (fun i => B i κ - A i κ) κ‖ ≤ δ * ‖(M k).det‖ := by
        rw [hκκ] at hcr
        have := hcr.trans (mul_le_mul_of_nonneg_left hEκ (norm_nonneg (M k).det))
        rw [hδ, div_mul_eq_mul_div, le_div_iff₀ h1t]
        refine le_of_mul_le_mul_right ?_ hpos
        linarith
      have hMk : ‖(M k).det‖ ≤ (1 + δ) ^ k * ‖A.det‖ := by
        have := norm_sub_norm_le (M k).det A.det
        linarith
      have hc' := hc.trans (mul_le_mul_of_nonneg_left hMk hδ0)
      rw [hdet, pow_succ]
      have t := norm_add_le ((M k).det - A.det) ((M k).cramer (fun i => B i κ - A i κ) κ)
      have e : (M k).det + (M k).cramer (fun i => B i κ - A i κ) κ - A.det = ((M k).det - A.det) + (M k).cramer (fun i => B i κ - A i κ) κ := by ring
      rw [e]
      linarith
  have hN : M N = B := by ext i j; simp [M]
  have := key N le_rfl
  rwa [hN] at this

end Mathter.FlC
