import Verif.Lemmas.RoundedOne
import Mathlib.Tactic.Push

/-!
# Specification of gradual underflow

Independent of the code: what rounding does to numbers below the smallest normal number, and what follows for sums and products.
-/

namespace Mathter

/-- `fl` rounds like `fl₀`, except that results below the smallest normal number `2^(p-1+e)` are rounded to a nearest multiple of the smallest subnormal
number `2^e` (IEEE 754; `p = 24`, `e = -149` for `float`, `p = 53`, `e = -1074` for `double`). -/
structure Underflows (p : ℕ) (e : ℤ) (fl fl₀ : ℝ → ℝ) : Prop where
  normal : ∀ x, (2 : ℝ) ^ ((p : ℤ) - 1 + e) ≤ |x| → fl x = fl₀ x
  grid : ∀ x, |x| < (2 : ℝ) ^ ((p : ℤ) - 1 + e) → Grid e (fl x)
  near : ∀ x, |x| < (2 : ℝ) ^ ((p : ℤ) - 1 + e) → |fl x - x| ≤ (2 : ℝ) ^ e / 2

namespace Underflows
variable {p : ℕ} {e : ℤ} {fl fl₀ : ℝ → ℝ}

/-- Every result is a multiple of the smallest number. -/
theorem mem (h : Underflows p e fl fl₀) (hp : 1 ≤ p) (h₀ : RoundsToNearest p fl₀) (x : ℝ) : Grid e (fl x) := by
  rcases lt_or_ge |x| ((2 : ℝ) ^ ((p : ℤ) - 1 + e)) with hx | hx
  · exact h.grid x hx
  · rw [h.normal x hx]
    exact grid_of_isFloat (h₀.mem x) (pow_le_fl hp h₀ hx)

/-- Multiples of the smallest number, such as sums of floats, do not underflow. -/
theorem eq_of_grid (h : Underflows p e fl fl₀) (hp : 1 ≤ p) (h₀ : RoundsToNearest p fl₀) {x : ℝ} (hx : Grid e x) : fl x = fl₀ x := by
  rcases lt_or_ge |x| ((2 : ℝ) ^ ((p : ℤ) - 1 + e)) with hs | hs
  · have e1 : fl x = x := by
      obtain ⟨k, hk⟩ := grid_sub (h.grid x hs) hx
      have hn := h.near x hs
      have h2 := two_zpow_pos e
      rw [hk, abs_mul, abs_of_pos h2] at hn
      have h3 : |(k : ℝ)| < 1 := by
        by_contra hc
        push Not at hc
        nlinarith
      have h4 : k = 0 := by
        have : |k| < 1 := by exact_mod_cast h3
        exact Int.abs_lt_one_iff.1 this
      rw [h4] at hk
      simp only [Int.cast_zero, zero_mul] at hk
      linarith
    rw [e1]
    refine (h₀.fixed (isFloat_of_grid hp hx (hs.le.trans ?_))).symm
    exact zpow_le_zpow_right₀ (by norm_num) (by omega)
  · exact h.normal x hs

/-- Results are floats also without underflow. -/
theorem fix₀ (h : Underflows p e fl fl₀) (hp : 1 ≤ p) (h₀ : RoundsToNearest p fl₀) (x : ℝ) : fl₀ (fl x) = fl x := by
  rcases lt_or_ge |x| ((2 : ℝ) ^ ((p : ℤ) - 1 + e)) with hs | hs
  · refine h₀.fixed (isFloat_of_grid hp (h.grid x hs) ?_)
    obtain ⟨y, hy⟩ := h.grid x hs
    have hn := h.near x hs
    have h2 := two_zpow_pos e
    have hb : |fl x| ≤ |x| + 2 ^ e / 2 := by
      have := abs_sub_abs_le_abs_sub (fl x) x
      linarith
    have hq : (2 : ℝ) ^ ((p : ℤ) - 1 + e) + 2 ^ e ≤ 2 ^ ((p : ℤ) + e) := by
      have a : (2 : ℝ) ^ ((p : ℤ) + e) = 2 * 2 ^ ((p : ℤ) - 1 + e) := by
        rw [show (p : ℤ) + e = 1 + ((p : ℤ) - 1 + e) by ring, zpow_add₀ (by norm_num), zpow_one]
      have b : (2 : ℝ) ^ e ≤ 2 ^ ((p : ℤ) - 1 + e) := zpow_le_zpow_right₀ (by norm_num) (by omega)
      linarith
    linarith
  · rw [h.normal x hs]; exact h₀.fixed (h₀.mem x)

theorem idem (h : Underflows p e fl fl₀) (hp : 1 ≤ p) (h₀ : RoundsToNearest p fl₀) (x : ℝ) : fl (fl x) = fl x := by
  rw [h.eq_of_grid hp h₀ (h.mem hp h₀ x), h.fix₀ hp h₀]

theorem grid_of_fix (h : Underflows p e fl fl₀) (hp : 1 ≤ p) (h₀ : RoundsToNearest p fl₀) {x : ℝ} (hx : fl x = x) : Grid e x := hx ▸ h.mem hp h₀ x

/-- The error of any operation: relative to the result, or half of the smallest number. -/
theorem err (h : Underflows p e fl fl₀) (hp : 1 ≤ p) (h₀ : RoundsToNearest p fl₀) (x : ℝ) : |fl x - x| ≤ 2 ^ (-(p : ℤ)) * |x| + 2 ^ e / 2 := by
  have h2 := two_zpow_pos e
  rcases lt_or_ge |x| ((2 : ℝ) ^ ((p : ℤ) - 1 + e)) with hs | hs
  · have := h.near x hs
    have : (0 : ℝ) ≤ 2 ^ (-(p : ℤ)) * |x| := by positivity
    linarith
  · rw [h.normal x hs]
    have := (h₀.rounding hp).err x
    linarith

/-- The error of a sum is relative to the result. -/
theorem err_grid (h : Underflows p e fl fl₀) (hp : 1 ≤ p) (h₀ : RoundsToNearest p fl₀) {x : ℝ} (hx : Grid e x) : |fl x - x| ≤ 2 ^ (-(p : ℤ)) * |x| := by
  rw [h.eq_of_grid hp h₀ hx]
  exact (h₀.rounding hp).err x

theorem zero (h : Underflows p e fl fl₀) (hp : 1 ≤ p) (h₀ : RoundsToNearest p fl₀) : fl 0 = 0 := by
  have := h.err_grid hp h₀ (x := 0) ⟨0, by simp⟩
  simpa using this

theorem neg (h : Underflows p e fl fl₀) (hp : 1 ≤ p) (h₀ : RoundsToNearest p fl₀) {x : ℝ} (hx : fl x = x) : fl (-x) = -x := by
  obtain ⟨m, hm⟩ := h.grid_of_fix hp h₀ hx
  rw [h.eq_of_grid hp h₀ ⟨-m, by rw [hm]; push_cast; ring⟩, h₀.odd, ← h.eq_of_grid hp h₀ ⟨m, hm⟩, hx]

end Underflows

/-- Rounding with gradual underflow. -/
noncomputable def flGradual (p : ℕ) (e : ℤ) (fl₀ : ℝ → ℝ) (x : ℝ) : ℝ :=
  if |x| < (2 : ℝ) ^ ((p : ℤ) - 1 + e) then round (x / 2 ^ e) * 2 ^ e else fl₀ x

theorem flGradual_underflows (p : ℕ) (e : ℤ) (fl₀ : ℝ → ℝ) : Underflows p e (flGradual p e fl₀) fl₀ where
  normal x hx := by unfold flGradual; rw [if_neg (not_lt.2 hx)]
  grid x hx := by unfold flGradual; rw [if_pos hx]; exact ⟨_, rfl⟩
  near x hx := by
    unfold flGradual
    rw [if_pos hx]
    have h2 := two_zpow_pos e
    have := abs_sub_round (x / 2 ^ e)
    rw [abs_sub_comm] at this
    have e1 : (round (x / 2 ^ e) : ℝ) * 2 ^ e - x = (round (x / 2 ^ e) - x / 2 ^ e) * 2 ^ e := by field_simp
    rw [e1, abs_mul, abs_of_pos h2]
    nlinarith

end Mathter
