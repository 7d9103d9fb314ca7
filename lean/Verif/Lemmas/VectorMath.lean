import Mathlib.Analysis.InnerProductSpace.PiL2
import Verif.Model.VectorMath

/-! Helper lemmas connecting the vector mathematics model to Mathlib's Euclidean space. -/

namespace Mathter
universe u
variable {𝕜 : Type u} [RCLike 𝕜] {n : ℕ}

/-- The vector as an element of Euclidean space. -/
abbrev toE (v : Fin n → 𝕜) : EuclideanSpace 𝕜 (Fin n) := WithLp.toLp 2 v

theorem dot_eq_sum (a b : Fin n → 𝕜) : dot a b = ∑ i, a i * star (b i) := rfl

theorem dot_eq_inner (a b : Fin n → 𝕜) : dot a b = inner 𝕜 (toE b) (toE a) := by
  rw [dot_eq_sum, PiLp.inner_apply]
  apply Finset.sum_congr rfl
  intro i _
  rw [RCLike.inner_apply]
  rfl

theorem lengthSquared_eq (v : Fin n → 𝕜) : lengthSquared v = ‖toE v‖ ^ 2 := by
  rw [lengthSquared, dot_eq_inner, inner_self_eq_norm_sq]

theorem length_eq_norm (v : Fin n → 𝕜) : length v = ‖toE v‖ := by
  rw [length, lengthSquared_eq, Real.sqrt_sq (norm_nonneg _)]

theorem dot_self (v : Fin n → 𝕜) : dot v v = ((length v ^ 2 : ℝ) : 𝕜) := by
  rw [dot_eq_inner, inner_self_eq_norm_sq_to_K, length_eq_norm]
  push_cast; rfl

theorem length_nonneg (v : Fin n → 𝕜) : 0 ≤ length v := Real.sqrt_nonneg _

theorem length_eq_zero (v : Fin n → 𝕜) : length v = 0 ↔ v = 0 := by
  rw [length_eq_norm, norm_eq_zero]
  constructor
  · intro h; exact congrArg WithLp.ofLp h
  · rintro rfl; rfl

theorem divReal_eq (v : Fin n → 𝕜) (s : ℝ) : divReal v s = ((s⁻¹ : ℝ) : 𝕜) • v := by
  funext i
  simp [divReal, div_eq_mul_inv, mul_comm]

theorem toE_smul (a : 𝕜) (v : Fin n → 𝕜) : toE (a • v) = a • toE v := rfl

theorem length_smul (a : 𝕜) (v : Fin n → 𝕜) : length (a • v) = ‖a‖ * length v := by
  rw [length_eq_norm, toE_smul, norm_smul, length_eq_norm]

theorem length_divReal (v : Fin n → 𝕜) (s : ℝ) (hs : 0 < s) : length (divReal v s) = length v / s := by
  rw [divReal_eq, length_smul, RCLike.norm_ofReal, abs_of_pos (inv_pos.2 hs), mul_comm, div_eq_mul_inv]

theorem le_scaleElements (v : Fin (n + 1) → 𝕜) (i : Fin (n + 1)) : |RCLike.re (v i)| ≤ scaleElements v ∧ |RCLike.im (v i)| ≤ scaleElements v := by
  have := Finset.le_sup' (fun i => max |RCLike.re (v i)| |RCLike.im (v i)|) (Finset.mem_univ i)
  exact ⟨(le_max_left _ _).trans this, (le_max_right _ _).trans this⟩

theorem scaleElements_nonneg (v : Fin (n + 1) → 𝕜) : 0 ≤ scaleElements v := (abs_nonneg _).trans (le_scaleElements v 0).1

theorem scaleElements_eq_zero (v : Fin (n + 1) → 𝕜) : scaleElements v = 0 ↔ v = 0 := by
  constructor
  · intro h
    funext i
    have := le_scaleElements v i
    rw [h] at this
    apply RCLike.ext
    · simpa using abs_nonpos_iff.1 this.1
    · simpa using abs_nonpos_iff.1 this.2
  · rintro rfl
    simp only [scaleElements, Pi.zero_apply, map_zero, abs_zero, max_self]
    exact Finset.sup'_const _ _

theorem exists_scaleElements (v : Fin (n + 1) → 𝕜) : ∃ i, scaleElements v = |RCLike.re (v i)| ∨ scaleElements v = |RCLike.im (v i)| := by
  obtain ⟨i, -, hi⟩ := Finset.exists_mem_eq_sup' (⟨0, Finset.mem_univ 0⟩ : (Finset.univ : Finset (Fin (n + 1))).Nonempty)
    fun i => max |RCLike.re (v i)| |RCLike.im (v i)|
  refine ⟨i, ?_⟩
  rw [scaleElements, hi]
  rcases max_choice |RCLike.re (v i)| |RCLike.im (v i)| with h | h
  · exact Or.inl h
  · exact Or.inr h

theorem stdClamp_pos (x lo hi : ℝ) (hlo : 0 < lo) (h : lo ≤ hi) : 0 < stdClamp x lo hi := by
  unfold stdClamp
  split_ifs <;> linarith

theorem lengthSquared_eq_sum (v : Fin n → 𝕜) : lengthSquared v = ∑ i, (RCLike.re (v i) ^ 2 + RCLike.im (v i) ^ 2) := by
  rw [lengthSquared, dot_eq_sum, map_sum]
  apply Finset.sum_congr rfl
  intro i _
  simp [RCLike.mul_re]
  ring

theorem normalizePrecise_ne_zero (v d : Fin (n + 1) → 𝕜) (hv : v ≠ 0) : normalizePrecise v d = divReal v (length v) := by
  have hs : scaleElements v ≠ 0 := fun h => hv ((scaleElements_eq_zero v).1 h)
  have hp : 0 < scaleElements v := lt_of_le_of_ne (scaleElements_nonneg v) (Ne.symm hs)
  have hl : length v ≠ 0 := fun h => hv ((length_eq_zero v).1 h)
  unfold normalizePrecise
  simp only [if_neg hs]
  rw [length_divReal _ _ hp, if_pos (div_ne_zero hl hs)]
  funext i
  simp only [divReal]
  have h1 : ((scaleElements v : ℝ) : 𝕜) ≠ 0 := by exact_mod_cast hs
  push_cast
  field_simp

end Mathter
