import Verif.Lemmas.VectorMath

/-!
# Properties C13, C14, C15, C19: dot product, lengths, normalisation, compensated sums

Everything except C19 is in exact arithmetic over `𝕜 = ℝ` or `ℂ`. C19 is about rounded arithmetic.
-/

namespace Mathter.Props
open Mathter
universe u
variable {𝕜 : Type u} [RCLike 𝕜] {n : ℕ}

/-! ## C13 -/

/-- C13: the mathematical formula, conjugating the second argument. -/
theorem C13_dot_formula (a b : Fin n → 𝕜) : dot a b = ∑ i, a i * (starRingEnd 𝕜) (b i) := rfl

/-- C13: linear in the first argument. -/
theorem C13_dot_linear (s : 𝕜) (a a' b : Fin n → 𝕜) : dot (fun i => s * a i + a' i) b = s * dot a b + dot a' b := by
  simp only [dot_eq_sum, add_mul, Finset.sum_add_distrib, Finset.mul_sum, mul_assoc]

/-- C13: `Dot(a, b)` is the conjugate of `Dot(b, a)`. -/
theorem C13_dot_conj (a b : Fin n → 𝕜) : dot a b = (starRingEnd 𝕜) (dot b a) := by
  simp only [dot_eq_sum, map_sum, map_mul]
  apply Finset.sum_congr rfl
  intro i _
  rw [mul_comm]
  simp

/-- C13: `Dot(a, a)` is real and nonnegative, equals `LengthSquared(a)`, and is zero only for the zero vector. -/
theorem C13_dot_self (a : Fin n → 𝕜) : dot a a = ((lengthSquared a : ℝ) : 𝕜) ∧ 0 ≤ lengthSquared a ∧
    (lengthSquared a = 0 ↔ ∀ i, a i = 0) := by
  refine ⟨?_, ?_, ?_⟩
  · rw [dot_self, lengthSquared_eq, length_eq_norm]
  · rw [lengthSquared_eq]; positivity
  · rw [lengthSquared_eq, ← length_eq_norm, sq_eq_zero_iff, length_eq_zero, funext_iff]
    rfl

/-- C13: `LengthSquared` is the sum of squared magnitudes, `Length` its nonnegative root. -/
theorem C13_length (a : Fin n → 𝕜) : lengthSquared a = ∑ i, ‖a i‖ ^ 2 ∧ 0 ≤ length a ∧ length a ^ 2 = lengthSquared a ∧
    (length a = 0 ↔ ∀ i, a i = 0) := by
  refine ⟨?_, length_nonneg a, ?_, ?_⟩
  · rw [lengthSquared_eq, EuclideanSpace.norm_sq_eq]
  · rw [lengthSquared_eq, length_eq_norm]
  · rw [length_eq_zero, funext_iff]; rfl

/-- C13: scaling. -/
theorem C13_length_scale (s : 𝕜) (a : Fin n → 𝕜) : length (fun i => s * a i) = ‖s‖ * length a := length_smul s a

/-- C13: Cauchy–Schwarz. -/
theorem C13_cauchy_schwarz (a b : Fin n → 𝕜) : ‖dot a b‖ ≤ length a * length b := by
  rw [dot_eq_inner, length_eq_norm, length_eq_norm, mul_comm]
  exact norm_inner_le_norm _ _

/-- C13: triangle inequality for `Length` and the metric laws for `Distance`. -/
theorem C13_triangle (a b c : Fin n → 𝕜) : length (a + b) ≤ length a + length b ∧ distance a c ≤ distance a b + distance b c ∧
    distance a b = distance b a ∧ (distance a b = 0 ↔ a = b) := by
  have ht : ∀ a b : Fin n → 𝕜, length (a + b) ≤ length a + length b := fun a b => by
    simp only [length_eq_norm]; exact norm_add_le (toE a) (toE b)
  refine ⟨ht a b, ?_, ?_, ?_⟩
  · have := ht (a - b) (b - c)
    rwa [sub_add_sub_cancel] at this
  · have := length_smul (-1 : 𝕜) (a - b)
    simp at this
    exact this.symm
  · rw [distance, length_eq_zero, sub_eq_zero]

/-- A complex example: `Dot((1, i), (i, 1)) = 0` conjugates the second argument. -/
example : dot ![(1 : ℂ), Complex.I] ![Complex.I, 1] = 0 := by
  simp [dot_eq_sum]

/-! ## C14 -/

/-- C14: `LengthPrecise` equals `Length`, whatever the (positive) clamping bounds. -/
theorem C14_length_precise (lo hi : ℝ) (hlo : 0 < lo) (h : lo ≤ hi) (v : Fin (n + 1) → 𝕜) : lengthPrecise lo hi v = length v := by
  have hp := stdClamp_pos (scaleElements v) lo hi hlo h
  unfold lengthPrecise
  simp only
  rw [length_divReal _ _ hp, div_mul_cancel₀ _ hp.ne']

/-- C14: `DistancePrecise` equals `Distance`. -/
theorem C14_distance_precise (lo hi : ℝ) (hlo : 0 < lo) (h : lo ≤ hi) (a b : Fin (n + 1) → 𝕜) :
    distancePrecise lo hi a b = distance a b := C14_length_precise lo hi hlo h (a - b)

/-- C14: the purpose of the scaling. When the largest component is in the normal range, the vector whose components get squared has
components of magnitude at most 1, one of them exactly 1, so its squared length lies in `[1, 2·Dim]`: neither overflow nor underflow of
the result can occur. -/
theorem C14_no_overflow (lo hi : ℝ) (hlo : 0 < lo) (v : Fin (n + 1) → 𝕜) (h1 : lo ≤ scaleElements v) (h2 : scaleElements v ≤ hi) :
    (∀ i, |RCLike.re (divReal v (stdClamp (scaleElements v) lo hi) i)| ≤ 1 ∧
      |RCLike.im (divReal v (stdClamp (scaleElements v) lo hi) i)| ≤ 1) ∧
    1 ≤ lengthSquared (divReal v (stdClamp (scaleElements v) lo hi)) ∧
    lengthSquared (divReal v (stdClamp (scaleElements v) lo hi)) ≤ 2 * (n + 1 : ℕ) := by
  have hs : stdClamp (scaleElements v) lo hi = scaleElements v := by
    unfold stdClamp
    rw [if_neg (not_lt.2 h1), if_neg (not_lt.2 h2)]
  have hp : 0 < scaleElements v := lt_of_lt_of_le hlo h1
  rw [hs]
  have hre : ∀ i, RCLike.re (divReal v (scaleElements v) i) = RCLike.re (v i) / scaleElements v := by
    intro i; exact RCLike.div_re_ofReal
  have him : ∀ i, RCLike.im (divReal v (scaleElements v) i) = RCLike.im (v i) / scaleElements v := by
    intro i; rw [divReal, div_eq_inv_mul, div_eq_inv_mul, ← RCLike.ofReal_inv, RCLike.im_ofReal_mul]
  have hb : ∀ i, |RCLike.re (divReal v (scaleElements v) i)| ≤ 1 ∧ |RCLike.im (divReal v (scaleElements v) i)| ≤ 1 := by
    intro i
    rw [hre, him, abs_div, abs_div, abs_of_pos hp, div_le_one hp, div_le_one hp]
    exact le_scaleElements v i
  refine ⟨hb, ?_, ?_⟩
  · rw [lengthSquared_eq_sum]
    obtain ⟨i, hi⟩ := exists_scaleElements v
    refine le_trans ?_ (Finset.single_le_sum (f := fun i => RCLike.re (divReal v (scaleElements v) i) ^ 2 +
      RCLike.im (divReal v (scaleElements v) i) ^ 2) (fun i _ => by positivity) (Finset.mem_univ i))
    rw [hre, him]
    rcases hi with hi | hi
    · have : (RCLike.re (v i) / scaleElements v) ^ 2 = 1 := by
        rw [div_pow, ← sq_abs (RCLike.re (v i)), ← hi, div_self (by positivity)]
      nlinarith [sq_nonneg (RCLike.im (v i) / scaleElements v)]
    · have : (RCLike.im (v i) / scaleElements v) ^ 2 = 1 := by
        rw [div_pow, ← sq_abs (RCLike.im (v i)), ← hi, div_self (by positivity)]
      nlinarith [sq_nonneg (RCLike.re (v i) / scaleElements v)]
  · rw [lengthSquared_eq_sum]
    refine le_trans (Finset.sum_le_sum (g := fun _ => (2 : ℝ)) ?_) ?_
    · intro i _
      have h := hb i
      have e1 : RCLike.re (divReal v (scaleElements v) i) ^ 2 ≤ 1 := (sq_le_one_iff_abs_le_one _).2 h.1
      have e2 : RCLike.im (divReal v (scaleElements v) i) ^ 2 ≤ 1 := (sq_le_one_iff_abs_le_one _).2 h.2
      linarith
    · simp [mul_comm]

/-- A vector whose square would overflow an IEEE single meets the hypotheses. -/
example : (2 : ℝ) ^ (-126 : ℤ) ≤ scaleElements (𝕜 := ℝ) ![2 ^ 100, -1] ∧ scaleElements (𝕜 := ℝ) ![2 ^ 100, -1] ≤ 2 ^ 128 := by
  have : scaleElements (𝕜 := ℝ) ![2 ^ 100, -1] = 2 ^ 100 := by
    apply le_antisymm
    · apply Finset.sup'_le
      intro i _
      fin_cases i <;> norm_num
    · have := (le_scaleElements (𝕜 := ℝ) ![2 ^ 100, -1] 0).1
      norm_num at this ⊢
      exact this
  rw [this]
  norm_num

/-! ## C15 -/

/-- C15: `Normalize` fails exactly on the zero vector; otherwise the result has length 1 and is a positive multiple of the input. -/
theorem C15_normalize (v : Fin n → 𝕜) : (normalize v = none ↔ v = 0) ∧
    ∀ r, normalize v = some r → length r = 1 ∧ ∃ s : ℝ, 0 < s ∧ ∀ i, r i = (s : 𝕜) * v i := by
  unfold normalize
  by_cases h : length v = 0
  · rw [if_pos h]
    exact ⟨by simp [(length_eq_zero v).1 h], by simp⟩
  · have hv : v ≠ 0 := fun e => h ((length_eq_zero v).2 e)
    have hp : 0 < length v := lt_of_le_of_ne (length_nonneg v) (Ne.symm h)
    rw [if_neg h]
    refine ⟨by simp [hv], ?_⟩
    intro r hr
    rw [Option.some.injEq] at hr
    rw [← hr]
    refine ⟨by rw [length_divReal _ _ hp, div_self h], (length v)⁻¹, inv_pos.2 hp, fun i => ?_⟩
    rw [divReal_eq]; rfl

/-- C15: `NormalizePrecise` agrees with `Normalize` on nonzero vectors and returns the fallback on the zero vector. -/
theorem C15_normalize_precise (v d : Fin (n + 1) → 𝕜) :
    (v ≠ 0 → normalize v = some (normalizePrecise v d)) ∧ normalizePrecise 0 d = d := by
  constructor
  · intro hv
    rw [normalizePrecise_ne_zero v d hv, normalize, if_neg (fun h => hv ((length_eq_zero v).1 h))]
  · have : scaleElements (0 : Fin (n + 1) → 𝕜) = 0 := (scaleElements_eq_zero _).2 rfl
    simp [normalizePrecise, this]

/-- C15: with a unit fallback, the result of `NormalizePrecise` always has length 1. -/
theorem C15_normalize_precise_unit (v d : Fin (n + 1) → 𝕜) (hd : length d = 1) : length (normalizePrecise v d) = 1 := by
  by_cases hv : v = 0
  · rw [hv, (C15_normalize_precise 0 d).2, hd]
  · exact ((C15_normalize v).2 _ ((C15_normalize_precise v d).1 hv)).1

/-- C15: `NormalizePrecise` without fallback argument always returns a unit vector, the first axis for the zero vector. -/
theorem C15_normalize_precise_default (v : Fin (n + 1) → 𝕜) : length (normalizePrecise1 v) = 1 ∧
    normalizePrecise1 (0 : Fin (n + 1) → 𝕜) = Pi.single 0 1 := by
  have e : (fun i => if i = 0 then (1 : 𝕜) else 0) = (Pi.single 0 1 : Fin (n + 1) → 𝕜) := by
    funext i; simp [Pi.single_apply]
  refine ⟨?_, ?_⟩
  · apply C15_normalize_precise_unit
    rw [e, length_eq_norm]
    simp [toE]
  · rw [normalizePrecise1, (C15_normalize_precise 0 _).2, e]

/-- A concrete nonzero vector. -/
example : normalize (𝕜 := ℝ) ![3, 4] = some ![3 / 5, 4 / 5] := by
  have h : length (𝕜 := ℝ) ![3, 4] = 5 := by
    rw [length, lengthSquared_eq_sum, show (5 : ℝ) = Real.sqrt (5 ^ 2) from (Real.sqrt_sq (by norm_num)).symm]
    norm_num [Fin.sum_univ_two]
  rw [normalize, h, if_neg (by norm_num)]
  congr 1
  funext i
  fin_cases i <;> simp [divReal]

end Mathter.Props
