import Verif.Spec.Rounding
import Mathlib.Tactic.LinearCombination

/-!
# Numbers close to one are rounded to one
-/

namespace Mathter

/-- A number very close to one is rounded to one. -/
theorem round_to_one {fl : ℝ → ℝ} {p : ℕ} (hp : 2 ≤ p) (hfl : RoundsToNearest p fl) {x : ℝ} (hx : |1 - x| < (2 : ℝ) ^ (-(p : ℤ) - 1)) : fl x = 1 := by
  have h1 : IsFloat p 1 := ⟨1, 0, by norm_num, by rw [abs_one]; exact one_lt_pow₀ (by norm_num) (by omega)⟩
  have h2 := hfl.nearest x 1 h1
  have e : (2 : ℝ) ^ (-(p : ℤ) - 1) * 2 = (2 : ℝ) ^ (-(p : ℤ)) := by
    rw [← zpow_add_one₀ (by norm_num)]; congr 1; ring
  have h3 : |fl x - 1| < (2 : ℝ) ^ (-(p : ℤ)) := by
    have t := abs_add_le (fl x - x) (x - 1)
    rw [sub_add_sub_cancel, abs_sub_comm x 1] at t
    linarith
  have hsm : (2 : ℝ) ^ (-(p : ℤ)) ≤ 1 / 4 := by
    calc (2 : ℝ) ^ (-(p : ℤ)) ≤ (2 : ℝ) ^ (-2 : ℤ) := zpow_le_zpow_right₀ (by norm_num) (by omega)
      _ = 1 / 4 := by norm_num
  have h4 : (2 : ℝ) ^ ((p : ℤ) - 1 + -(p : ℤ)) ≤ |fl x| := by
    rw [show (p : ℤ) - 1 + -(p : ℤ) = -1 by ring]
    have := (abs_lt.1 h3).1
    refine le_trans ?_ (le_abs_self _)
    norm_num; linarith
  obtain ⟨k, hk⟩ := grid_of_isFloat (e := -(p : ℤ)) (hfl.mem x) h4
  have h5 : (1 : ℝ) = ((2 ^ p : ℤ) : ℝ) * (2 : ℝ) ^ (-(p : ℤ)) := by
    push_cast
    rw [zpow_neg, zpow_natCast, mul_inv_cancel₀ (by positivity)]
  have hpos : (0 : ℝ) < (2 : ℝ) ^ (-(p : ℤ)) := by positivity
  have h6 : |((k - 2 ^ p : ℤ) : ℝ)| < 1 := by
    have : fl x - 1 = ((k - 2 ^ p : ℤ) : ℝ) * (2 : ℝ) ^ (-(p : ℤ)) := by
      rw [hk]; push_cast at h5 ⊢; linear_combination -h5
    rw [this, abs_mul, abs_of_pos hpos] at h3
    by_contra hc
    push Not at hc
    nlinarith
  have h7 : k - 2 ^ p = 0 := by
    have : |k - 2 ^ p| < 1 := by exact_mod_cast h6
    exact Int.abs_lt_one_iff.1 this
  rw [hk, show k = 2 ^ p by omega]
  exact h5.symm

/-- A float is rounded to itself. -/
theorem RoundsToNearest.fixed {fl : ℝ → ℝ} {p : ℕ} (hfl : RoundsToNearest p fl) {x : ℝ} (hx : IsFloat p x) : fl x = x := by
  have := hfl.nearest x x hx
  rw [sub_self, abs_zero] at this
  linarith [abs_nonpos_iff.1 this]

end Mathter
