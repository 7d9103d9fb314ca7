import Mathlib.Data.Real.Basic
import Mathlib.Algebra.Order.Archimedean.Real.Basic
import Mathlib.Data.Int.Log
import Mathlib.Algebra.Order.Field.Power
import Mathlib.Algebra.Order.Floor.Ring
import Mathlib.Algebra.Order.Round
import Mathlib.Tactic.Linarith
import Mathlib.Tactic.Positivity
import Mathlib.Tactic.FieldSimp
import Mathlib.Tactic.Ring
import Mathlib.Tactic.NormNum

/-!
# Specification of rounded arithmetic

Independent of the code: what a binary floating point format and round-to-nearest are, and the classical consequences that the
compensated algorithms rely on. Overflow and underflow are not represented (the exponent is unbounded).
-/

namespace Mathter

/-- Numbers with a significand of at most `p` bits: `m·2^e` with `|m| < 2^p`. -/
def IsFloat (p : ℕ) (x : ℝ) : Prop := ∃ m e : ℤ, x = m * (2 : ℝ) ^ e ∧ |m| < 2 ^ p

/-- `fl` rounds every real to a nearest float (any rule for ties that is symmetric around 0, e.g. ties-to-even). -/
structure RoundsToNearest (p : ℕ) (fl : ℝ → ℝ) : Prop where
  mem : ∀ x, IsFloat p (fl x)
  nearest : ∀ x y, IsFloat p y → |fl x - x| ≤ |y - x|
  odd : ∀ x, fl (-x) = -fl x

/-- What the error analysis needs from rounding, with relative error `u`. -/
structure Rounding (fl : ℝ → ℝ) (u : ℝ) : Prop where
  u_nonneg : 0 ≤ u
  idem : ∀ x, fl (fl x) = fl x
  odd : ∀ x, fl (-x) = -fl x
  err : ∀ x, |fl x - x| ≤ u * |x|
  sub_exact : ∀ a b, fl a = a → fl b = b → |b| ≤ |a| → fl (fl (a + b) - a) = fl (a + b) - a
  err_exact : ∀ a b, fl a = a → fl b = b → |b| ≤ |a| → fl (a + b - fl (a + b)) = a + b - fl (a + b)

/-- Multiples of `2^e`. -/
def Grid (e : ℤ) (x : ℝ) : Prop := ∃ m : ℤ, x = m * (2 : ℝ) ^ e

theorem grid_add {e : ℤ} {x y : ℝ} (hx : Grid e x) (hy : Grid e y) : Grid e (x + y) := by
  obtain ⟨m, rfl⟩ := hx; obtain ⟨k, rfl⟩ := hy
  exact ⟨m + k, by push_cast; ring⟩

theorem grid_sub {e : ℤ} {x y : ℝ} (hx : Grid e x) (hy : Grid e y) : Grid e (x - y) := by
  obtain ⟨m, rfl⟩ := hx; obtain ⟨k, rfl⟩ := hy
  exact ⟨m - k, by push_cast; ring⟩

theorem two_zpow_pos (e : ℤ) : (0 : ℝ) < (2 : ℝ) ^ e := by positivity

theorem isFloat_of_grid {p : ℕ} (hp : 1 ≤ p) {e : ℤ} {x : ℝ} (hx : Grid e x) (h : |x| ≤ (2 : ℝ) ^ ((p : ℤ) + e)) : IsFloat p x := by
  obtain ⟨m, rfl⟩ := hx
  have h2 := two_zpow_pos e
  rw [abs_mul, abs_of_pos h2, zpow_add₀ (by norm_num), mul_le_mul_iff_left₀ h2] at h
  have hm : |m| ≤ 2 ^ p := by
    rw [zpow_natCast] at h
    exact_mod_cast h
  rcases lt_or_eq_of_le hm with hlt | heq
  · exact ⟨m, e, rfl, hlt⟩
  · obtain ⟨q, rfl⟩ : ∃ q, p = q + 1 := ⟨p - 1, by omega⟩
    have hpos : (2 : ℤ) ^ q < 2 ^ (q + 1) := by rw [pow_succ]; have : (0 : ℤ) < 2 ^ q := by positivity
                                                omega
    rcases abs_eq (by positivity) |>.1 heq with h1 | h1
    · refine ⟨2 ^ q, e + 1, ?_, by rw [abs_of_pos (by positivity)]; exact hpos⟩
      rw [h1, zpow_add₀ (by norm_num)]; push_cast; ring
    · refine ⟨-2 ^ q, e + 1, ?_, by rw [abs_neg, abs_of_pos (by positivity)]; exact hpos⟩
      rw [h1, zpow_add₀ (by norm_num)]; push_cast; ring

theorem grid_of_isFloat {p : ℕ} {e : ℤ} {x : ℝ} (hx : IsFloat p x) (h : (2 : ℝ) ^ ((p : ℤ) - 1 + e) ≤ |x|) : Grid e x := by
  obtain ⟨m, k, rfl, hm⟩ := hx
  by_cases hk : e ≤ k
  · refine ⟨m * 2 ^ (k - e).toNat, ?_⟩
    have : (2 : ℝ) ^ k = (2 : ℝ) ^ (k - e).toNat * (2 : ℝ) ^ e := by
      rw [← zpow_natCast, ← zpow_add₀ (by norm_num)]
      congr 1; omega
    rw [this]; push_cast; ring
  · exfalso
    have h2 := two_zpow_pos k
    rw [abs_mul, abs_of_pos h2] at h
    have hm' : |(m : ℝ)| < (2 : ℝ) ^ (p : ℤ) := by rw [zpow_natCast]; exact_mod_cast hm
    have h3 : |(m : ℝ)| * (2 : ℝ) ^ k < (2 : ℝ) ^ ((p : ℤ) + k) := by
      rw [zpow_add₀ (by norm_num)]; exact mul_lt_mul_of_pos_right hm' h2
    have h4 : (2 : ℝ) ^ ((p : ℤ) + k) ≤ (2 : ℝ) ^ ((p : ℤ) - 1 + e) := zpow_le_zpow_right₀ (by norm_num) (by omega)
    linarith

private theorem scale_spec (p : ℕ) {x : ℝ} (hx : x ≠ 0) :
    (2 : ℝ) ^ ((p : ℤ) - 1 + (Int.log 2 |x| - p + 1)) ≤ |x| ∧ |x| < (2 : ℝ) ^ ((p : ℤ) + (Int.log 2 |x| - p + 1)) := by
  have hpos : 0 < |x| := abs_pos.2 hx
  have h1 := Int.zpow_log_le_self (b := 2) (by norm_num) hpos
  have h2 := Int.lt_zpow_succ_log_self (b := 2) (by norm_num) |x|
  rw [show (p : ℤ) - 1 + (Int.log 2 |x| - p + 1) = Int.log 2 |x| by ring, show (p : ℤ) + (Int.log 2 |x| - p + 1) = Int.log 2 |x| + 1 by ring]
  exact ⟨by exact_mod_cast h1, by exact_mod_cast h2⟩

theorem exists_scale (p : ℕ) {x : ℝ} (hx : x ≠ 0) :
    ∃ k : ℤ, (2 : ℝ) ^ ((p : ℤ) - 1 + k) ≤ |x| ∧ |x| < (2 : ℝ) ^ ((p : ℤ) + k) := ⟨_, scale_spec p hx⟩

theorem grid_near (k : ℤ) (x : ℝ) : ∃ y, Grid k y ∧ |y - x| ≤ (2 : ℝ) ^ k / 2 := by
  have h2 := two_zpow_pos k
  refine ⟨round (x / (2 : ℝ) ^ k) * (2 : ℝ) ^ k, ⟨_, rfl⟩, ?_⟩
  have := abs_sub_round (x / (2 : ℝ) ^ k)
  have e : (round (x / (2 : ℝ) ^ k) : ℝ) * (2 : ℝ) ^ k - x = -((x / (2 : ℝ) ^ k - round (x / (2 : ℝ) ^ k)) * (2 : ℝ) ^ k) := by
    field_simp; ring
  rw [e, abs_neg, abs_mul, abs_of_pos h2]
  nlinarith

private theorem err_le {p : ℕ} (hp : 1 ≤ p) (x : ℝ) : ∃ y, IsFloat p y ∧ |y - x| ≤ (2 : ℝ) ^ (-(p : ℤ)) * |x| := by
  by_cases hx : x = 0
  · exact ⟨0, ⟨0, 0, by simp, by simp⟩, by simp [hx]⟩
  obtain ⟨k, h1, h2⟩ := exists_scale p hx
  have hpos := two_zpow_pos k
  have hle : (2 : ℝ) ^ k / 2 ≤ (2 : ℝ) ^ (-(p : ℤ)) * |x| := by
    have : (2 : ℝ) ^ k / 2 = (2 : ℝ) ^ (-(p : ℤ)) * (2 : ℝ) ^ ((p : ℤ) - 1 + k) := by
      rw [← zpow_add₀ (by norm_num), show -(p : ℤ) + ((p : ℤ) - 1 + k) = k - 1 by ring, zpow_sub_one₀ (by norm_num)]; ring
    rw [this]
    exact mul_le_mul_of_nonneg_left h1 (two_zpow_pos _).le
  obtain ⟨y, hy, hd⟩ := grid_near k x
  refine ⟨y, isFloat_of_grid hp hy ?_, hd.trans hle⟩
  -- |y| is a multiple of 2^k below 2^(p+k) + 2^k/2
  obtain ⟨m, rfl⟩ := hy
  have hy1 : |(m : ℝ) * (2 : ℝ) ^ k| < (2 : ℝ) ^ ((p : ℤ) + k) + (2 : ℝ) ^ k / 2 := by
    have := abs_sub_abs_le_abs_sub ((m : ℝ) * (2 : ℝ) ^ k) x
    linarith
  rw [abs_mul, abs_of_pos hpos, zpow_add₀ (by norm_num)] at hy1 ⊢
  have h3 : |(m : ℝ)| < (2 : ℝ) ^ (p : ℤ) + 1 / 2 := by
    have : |(m : ℝ)| * (2 : ℝ) ^ k < ((2 : ℝ) ^ (p : ℤ) + 1 / 2) * (2 : ℝ) ^ k := by linarith
    exact lt_of_mul_lt_mul_right this hpos.le
  apply mul_le_mul_of_nonneg_right _ hpos.le
  rw [zpow_natCast] at h3 ⊢
  have : |m| < 2 ^ p + 1 := by
    have : (|m| : ℝ) < 2 ^ p + 1 := by linarith
    exact_mod_cast this
  exact_mod_cast Int.lt_add_one_iff.1 this

/-- Every round-to-nearest satisfies the classical lemmas (relative error; exactness of the operations of Dekker's Fast2Sum). -/
theorem RoundsToNearest.rounding {p : ℕ} (hp : 1 ≤ p) {fl : ℝ → ℝ} (h : RoundsToNearest p fl) : Rounding fl ((2 : ℝ) ^ (-(p : ℤ))) := by
  have fix : ∀ x, IsFloat p x → fl x = x := by
    intro x hx
    have := h.nearest x x hx
    rw [sub_self, abs_zero] at this
    exact sub_eq_zero.1 (abs_nonpos_iff.1 this)
  have mem : ∀ x, fl x = x → IsFloat p x := fun x hx => hx ▸ h.mem x
  have core : ∀ a b, IsFloat p a → IsFloat p b → |b| ≤ |a| → IsFloat p (fl (a + b) - a) ∧ IsFloat p (a + b - fl (a + b)) := by
    intro a b ha hb hab
    by_cases hb0 : b = 0
    · have z : IsFloat p 0 := ⟨0, 0, by simp, by simp⟩
      rw [hb0, add_zero, fix a ha, sub_self]
      exact ⟨z, z⟩
    obtain ⟨k, h1, h2⟩ := exists_scale p hb0
    have hpos := two_zpow_pos k
    have Gb : Grid k b := grid_of_isFloat hb h1
    have Ga : Grid k a := grid_of_isFloat ha (h1.trans hab)
    have Gab := grid_add Ga Gb
    set s := fl (a + b) with hs
    have hbig : (2 : ℝ) ^ ((p : ℤ) + k) < |a + b| → (2 : ℝ) ^ ((p : ℤ) + k) ≤ |s| := by
      intro hlt
      by_contra hcon
      push Not at hcon
      have hpp := two_zpow_pos ((p : ℤ) + k)
      have hd : |s - (a + b)| ≤ |a + b| - (2 : ℝ) ^ ((p : ℤ) + k) := by
        rcases le_or_gt 0 (a + b) with h0 | h0
        · have := h.nearest (a + b) ((2 : ℝ) ^ ((p : ℤ) + k)) (isFloat_of_grid hp (e := (p : ℤ) + k) ⟨1, by simp⟩ (by
            rw [abs_of_pos hpp]; exact zpow_le_zpow_right₀ (by norm_num) (by omega)))
          rw [abs_of_nonneg h0] at hlt ⊢
          rw [abs_of_neg (by linarith : (2 : ℝ) ^ ((p : ℤ) + k) - (a + b) < 0)] at this
          linarith
        · have := h.nearest (a + b) (-(2 : ℝ) ^ ((p : ℤ) + k)) (isFloat_of_grid hp (e := (p : ℤ) + k) ⟨-1, by simp⟩ (by
            rw [abs_neg, abs_of_pos hpp]; exact zpow_le_zpow_right₀ (by norm_num) (by omega)))
          rw [abs_of_neg h0] at hlt ⊢
          rw [abs_of_pos (by linarith : 0 < -(2 : ℝ) ^ ((p : ℤ) + k) - (a + b))] at this
          linarith
      have := abs_sub_abs_le_abs_sub (a + b) s
      rw [abs_sub_comm] at this
      linarith
    have Gs : Grid k s := by
      by_cases hle : |a + b| ≤ (2 : ℝ) ^ ((p : ℤ) + k)
      · rw [hs, fix _ (isFloat_of_grid hp Gab hle)]; exact Gab
      · push Not at hle
        exact grid_of_isFloat (h.mem _) ((zpow_le_zpow_right₀ (by norm_num) (by omega)).trans (hbig hle))
    have hr : |a + b - s| ≤ |b| := by
      have := h.nearest (a + b) a ha
      rw [← hs, abs_sub_comm] at this
      simpa using this
    refine ⟨?_, isFloat_of_grid hp (grid_sub Gab Gs) (hr.trans h2.le)⟩
    by_cases hd : |s - a| ≤ (2 : ℝ) ^ ((p : ℤ) + k)
    · exact isFloat_of_grid hp (grid_sub Gs Ga) hd
    push Not at hd
    have hlt : (2 : ℝ) ^ ((p : ℤ) + k) < |a + b| := by
      by_contra hcon
      push Not at hcon
      rw [hs, fix _ (isFloat_of_grid hp Gab hcon), add_sub_cancel_left] at hd
      linarith
    have hexp : (p : ℤ) - 1 + (k + 1) = (p : ℤ) + k := by ring
    have Gs1 : Grid (k + 1) s := grid_of_isFloat (h.mem _) (by rw [hexp]; exact hbig hlt)
    have hdup : |s - a| ≤ (2 : ℝ) ^ ((p : ℤ) + (k + 1)) := by
      have e : s - a = b - (a + b - s) := by ring
      have := abs_sub b (a + b - s)
      rw [e]
      have e2 : (2 : ℝ) ^ ((p : ℤ) + (k + 1)) = 2 * (2 : ℝ) ^ ((p : ℤ) + k) := by
        rw [← add_assoc, zpow_add_one₀ (by norm_num)]; ring
      rw [e2]; linarith
    by_cases ha1 : (2 : ℝ) ^ ((p : ℤ) + k) ≤ |a|
    · exact isFloat_of_grid hp (grid_sub Gs1 (grid_of_isFloat ha (by rw [hexp]; exact ha1))) hdup
    · exfalso
      push Not at ha1
      have e2 : (2 : ℝ) ^ ((p : ℤ) + (k + 1)) = 2 * (2 : ℝ) ^ ((p : ℤ) + k) := by
        rw [← add_assoc, zpow_add_one₀ (by norm_num)]; ring
      have hk1 : (2 : ℝ) ^ (k + 1) = 2 * (2 : ℝ) ^ k := by rw [zpow_add_one₀ (by norm_num)]; ring
      -- |b| ≤ 2^(p+k) - 2^k
      have hb1 : |b| ≤ (2 : ℝ) ^ ((p : ℤ) + k) - (2 : ℝ) ^ k := by
        obtain ⟨m, hm⟩ := Gb
        rw [hm, abs_mul, abs_of_pos hpos, zpow_add₀ (by norm_num)] at h2 ⊢
        have h3 := lt_of_mul_lt_mul_right h2 hpos.le
        rw [zpow_natCast] at h3 ⊢
        have h4 : |m| < 2 ^ p := by exact_mod_cast h3
        have h5 : (|m| : ℝ) ≤ 2 ^ p - 1 := by
          have : |m| ≤ 2 ^ p - 1 := by omega
          exact_mod_cast this
        nlinarith
      -- the rounding error is at most 2^k
      obtain ⟨y, hy, hyd⟩ := grid_near (k + 1) (a + b)
      have hyF : IsFloat p y := by
        apply isFloat_of_grid hp hy
        obtain ⟨m, rfl⟩ := hy
        have h3 := abs_sub_abs_le_abs_sub ((m : ℝ) * (2 : ℝ) ^ (k + 1)) (a + b)
        have h4 := abs_add_le a b
        have hpos1 := two_zpow_pos (k + 1)
        have h5 : |(m : ℝ) * (2 : ℝ) ^ (k + 1)| < (2 : ℝ) ^ ((p : ℤ) + (k + 1)) := by
          rw [e2]; rw [hk1] at hyd; rw [hk1] at h3 ⊢; linarith
        exact h5.le
      have hr2 := h.nearest (a + b) y hyF
      rw [← hs] at hr2
      have e : s - a = b + (s - (a + b)) := by ring
      have h6 := abs_add_le b (s - (a + b))
      rw [← e] at h6
      rw [hk1] at hyd
      linarith
  refine ⟨(two_zpow_pos _).le, fun x => fix _ (h.mem x), h.odd, ?_, ?_, ?_⟩
  · intro x
    obtain ⟨y, hy, hd⟩ := err_le hp x
    exact (h.nearest x y hy).trans hd
  · intro a b ha hb hab
    exact fix _ (core a b (mem a ha) (mem b hb) hab).1
  · intro a b ha hb hab
    exact fix _ (core a b (mem a ha) (mem b hb) hab).2

/-- Rounding does not cross powers of two. -/
theorem pow_le_fl {p : ℕ} (hp : 1 ≤ p) {fl : ℝ → ℝ} (h : RoundsToNearest p fl) {x : ℝ} {k : ℤ} (hx : (2 : ℝ) ^ k ≤ |x|) : (2 : ℝ) ^ k ≤ |fl x| := by
  by_contra hcon
  push Not at hcon
  have hpp := two_zpow_pos k
  have hF : ∀ m : ℤ, |m| ≤ 1 → IsFloat p (m * (2 : ℝ) ^ k) := fun m hm => by
    refine ⟨m, k, rfl, lt_of_le_of_lt hm ?_⟩
    exact_mod_cast Nat.one_lt_two_pow (by omega)
  have hd : |fl x - x| ≤ |x| - (2 : ℝ) ^ k := by
    rcases le_or_gt 0 x with h0 | h0
    · have := h.nearest x _ (hF 1 (by norm_num))
      rw [abs_of_nonneg h0] at hx ⊢
      rw [Int.cast_one, one_mul, abs_of_nonpos (by linarith : (2 : ℝ) ^ k - x ≤ 0)] at this
      linarith
    · have := h.nearest x _ (hF (-1) (by norm_num))
      rw [abs_of_neg h0] at hx ⊢
      rw [Int.cast_neg, Int.cast_one, neg_one_mul, abs_of_nonneg (by linarith : 0 ≤ -(2 : ℝ) ^ k - x)] at this
      linarith
  have := abs_sub_abs_le_abs_sub x (fl x)
  rw [abs_sub_comm] at this
  linarith

/-- The error is at most half the distance of neighbouring floats. -/
private theorem half_ulp {p : ℕ} (hp : 1 ≤ p) {fl : ℝ → ℝ} (h : RoundsToNearest p fl) {x : ℝ} {k : ℤ} (hx : |x| < (2 : ℝ) ^ ((p : ℤ) + k)) :
    |fl x - x| ≤ (2 : ℝ) ^ k / 2 := by
  obtain ⟨y, hy, hd⟩ := grid_near k x
  refine (h.nearest x y (isFloat_of_grid hp hy ?_)).trans hd
  have hpos := two_zpow_pos k
  obtain ⟨m, rfl⟩ := hy
  have hy1 : |(m : ℝ) * (2 : ℝ) ^ k| < (2 : ℝ) ^ ((p : ℤ) + k) + (2 : ℝ) ^ k / 2 := by
    have := abs_sub_abs_le_abs_sub ((m : ℝ) * (2 : ℝ) ^ k) x
    linarith
  rw [abs_mul, abs_of_pos hpos, zpow_add₀ (by norm_num)] at hy1 ⊢
  have h3 : |(m : ℝ)| < (2 : ℝ) ^ (p : ℤ) + 1 / 2 := by
    have : |(m : ℝ)| * (2 : ℝ) ^ k < ((2 : ℝ) ^ (p : ℤ) + 1 / 2) * (2 : ℝ) ^ k := by linarith
    exact lt_of_mul_lt_mul_right this hpos.le
  apply mul_le_mul_of_nonneg_right _ hpos.le
  rw [zpow_natCast] at h3 ⊢
  have : |m| < 2 ^ p + 1 := by
    have : (|m| : ℝ) < 2 ^ p + 1 := by linarith
    exact_mod_cast this
  exact_mod_cast Int.lt_add_one_iff.1 this

/-- The product of two floats, as a multiple of a power of two. -/
private theorem mul_grid {p : ℕ} {a b : ℝ} (ha : IsFloat p a) (hb : IsFloat p b) :
    ∃ g : ℤ, Grid g (a * b) ∧ |a * b| ≤ ((2 : ℝ) ^ p - 1) ^ 2 * (2 : ℝ) ^ g := by
  obtain ⟨m, e, rfl, hm⟩ := ha
  obtain ⟨k, f, rfl, hk⟩ := hb
  have h0 : ∀ m : ℤ, |m| < 2 ^ p → |(m : ℝ)| ≤ (2 : ℝ) ^ p - 1 := by
    intro m hm
    have : |m| ≤ 2 ^ p - 1 := by omega
    exact_mod_cast this
  refine ⟨e + f, ⟨m * k, by rw [zpow_add₀ (by norm_num)]; push_cast; ring⟩, ?_⟩
  rw [show (m : ℝ) * 2 ^ e * (k * 2 ^ f) = (m * k) * (2 : ℝ) ^ (e + f) by rw [zpow_add₀ (by norm_num)]; ring, abs_mul,
    abs_of_pos (two_zpow_pos (e + f)), abs_mul, sq]
  exact mul_le_mul_of_nonneg_right (mul_le_mul (h0 m hm) (h0 k hk) (abs_nonneg _) ((abs_nonneg _).trans (h0 m hm))) (two_zpow_pos _).le

/-- The rounding error of a product of floats is a float (this is what a fused multiply-add computes in `fma(a, b, -fl(a*b))`). -/
theorem RoundsToNearest.mul_err {p : ℕ} (hp : 1 ≤ p) {fl : ℝ → ℝ} (h : RoundsToNearest p fl) {a b : ℝ} (ha : IsFloat p a) (hb : IsFloat p b) :
    fl (a * b - fl (a * b)) = a * b - fl (a * b) := by
  have fix : ∀ x, IsFloat p x → fl x = x := by
    intro x hx
    have := h.nearest x x hx
    rw [sub_self, abs_zero] at this
    exact sub_eq_zero.1 (abs_nonpos_iff.1 this)
  obtain ⟨g, hg, hb⟩ := mul_grid ha hb
  apply fix
  by_cases hs : |a * b| ≤ (2 : ℝ) ^ ((p : ℤ) + g)
  · rw [fix _ (isFloat_of_grid hp hg hs), sub_self]
    exact ⟨0, 0, by simp, by simp⟩
  push Not at hs
  have hw : Grid g (fl (a * b)) :=
    grid_of_isFloat (h.mem _) ((zpow_le_zpow_right₀ (by norm_num) (by omega)).trans (pow_le_fl hp h hs.le))
  refine isFloat_of_grid hp (grid_sub hg hw) ?_
  rw [abs_sub_comm]
  have hlt : |a * b| < (2 : ℝ) ^ ((p : ℤ) + (p + g)) := by
    refine lt_of_le_of_lt hb ?_
    rw [← add_assoc, zpow_add₀ (by norm_num), zpow_add₀ (by norm_num), zpow_natCast]
    apply mul_lt_mul_of_pos_right _ (two_zpow_pos g)
    have : (1 : ℝ) < 2 ^ p := one_lt_pow₀ (by norm_num) (by omega)
    nlinarith
  have := half_ulp hp h hlt
  have := two_zpow_pos ((p : ℤ) + g)
  linarith

/-- The accuracy of Kahan's evaluation of `a*b + c*d` with fused multiply-adds: whatever the cancellation, the relative error is about three units
of roundoff. -/
theorem RoundsToNearest.kahan {p : ℕ} (hp : 3 ≤ p) {fl : ℝ → ℝ} (h : RoundsToNearest p fl) {a b c d : ℝ} (ha : IsFloat p a) (hb : IsFloat p b)
    (hc : IsFloat p c) (hd : IsFloat p d) :
    |fl (fl (a * b + fl (c * d)) + fl (c * d - fl (c * d))) - (a * b + c * d)| ≤
      (3 * (2 : ℝ) ^ (-(p : ℤ)) + 4 * ((2 : ℝ) ^ (-(p : ℤ))) ^ 2) * |a * b + c * d| := by
  have hp1 : 1 ≤ p := by omega
  have R := h.rounding hp1
  rw [h.mul_err hp1 hc hd]
  have fix : ∀ x, IsFloat p x → fl x = x := by
    intro x hx
    have := h.nearest x x hx
    rw [sub_self, abs_zero] at this
    exact sub_eq_zero.1 (abs_nonpos_iff.1 this)
  set u := (2 : ℝ) ^ (-(p : ℤ)) with hu
  have hu0 : 0 < u := two_zpow_pos _
  have hu8 : u ≤ 1 / 8 := by
    have : u ≤ (2 : ℝ) ^ (-3 : ℤ) := zpow_le_zpow_right₀ (by norm_num) (by omega)
    norm_num at this ⊢
    exact this
  set w := fl (c * d) with hw
  set S := a * b + w with hS
  set e := c * d - w with he
  have hx : a * b + c * d = S + e := by rw [hS, he]; ring
  rw [hx]
  -- either the sum is exact, or the error of the product is at most about half of it
  have key : fl S = S ∨ (2 - u) * |e| ≤ |S| := by
    by_cases hw0 : w = 0
    · right
      have hcd : c * d = 0 := by
        have := R.err (c * d)
        rw [← hw, hw0, zero_sub, abs_neg] at this
        have h1 := abs_nonneg (c * d)
        exact abs_nonpos_iff.1 (by nlinarith)
      have : e = 0 := by rw [he, hcd, hw0, sub_zero]
      rw [this, abs_zero, mul_zero]; exact abs_nonneg _
    obtain ⟨t, ht1, ht2⟩ := exists_scale p hw0
    have hGw : Grid t w := grid_of_isFloat (h.mem _) ht1
    have hcd : |c * d| < (2 : ℝ) ^ ((p : ℤ) + t) := by
      by_contra hcon
      push Not at hcon
      have := pow_le_fl hp1 h hcon
      rw [← hw] at this
      linarith
    have he1 : |e| ≤ (2 : ℝ) ^ t / 2 := by
      have := half_ulp hp1 h hcd
      rwa [← hw, abs_sub_comm, ← he] at this
    obtain ⟨g, hg, hgb⟩ := mul_grid ha hb
    have htp := two_zpow_pos t
    rcases le_or_gt t g with htg | htg
    · have hG' : Grid t (a * b) := by
        obtain ⟨m, hm⟩ := hg
        refine ⟨m * 2 ^ (g - t).toNat, ?_⟩
        rw [hm]
        have : (2 : ℝ) ^ g = (2 : ℝ) ^ (g - t).toNat * (2 : ℝ) ^ t := by
          rw [← zpow_natCast, ← zpow_add₀ (by norm_num)]
          congr 1; omega
        rw [this]; push_cast; ring
      by_cases hs : |S| ≤ (2 : ℝ) ^ ((p : ℤ) + t)
      · exact Or.inl (fix _ (isFloat_of_grid hp1 (grid_add hG' hGw) hs))
      · right
        push Not at hs
        rw [zpow_add₀ (by norm_num), zpow_natCast] at hs
        have : (1 : ℝ) ≤ 2 ^ p := one_le_pow₀ (by norm_num)
        nlinarith [abs_nonneg e]
    · have hG' : Grid g w := by
        obtain ⟨m, hm⟩ := hGw
        refine ⟨m * 2 ^ (t - g).toNat, ?_⟩
        rw [hm]
        have : (2 : ℝ) ^ t = (2 : ℝ) ^ (t - g).toNat * (2 : ℝ) ^ g := by
          rw [← zpow_natCast, ← zpow_add₀ (by norm_num)]
          congr 1; omega
        rw [this]; push_cast; ring
      by_cases hs : |S| ≤ (2 : ℝ) ^ ((p : ℤ) + g)
      · exact Or.inl (fix _ (isFloat_of_grid hp1 (grid_add hg hG') hs))
      · right
        push Not at hs
        rcases le_or_gt t (p + g) with h1 | h1
        · have : (2 : ℝ) ^ t ≤ (2 : ℝ) ^ ((p : ℤ) + g) := zpow_le_zpow_right₀ (by norm_num) h1
          nlinarith [abs_nonneg e]
        · have hgp := two_zpow_pos g
          set q := (2 : ℝ) ^ p with hq
          have hq8 : 8 ≤ q := by
            have : (2 : ℝ) ^ 3 ≤ 2 ^ p := pow_le_pow_right₀ (by norm_num) hp
            norm_num at this; exact this
          have huq : u * q = 1 := by
            rw [hu, hq, ← zpow_natCast, ← zpow_add₀ (by norm_num)]; simp
          -- 2^t = H * 2 * q * 2^g
          set H := (2 : ℝ) ^ (t - (p + g) - 1) with hH
          have hH1 : 1 ≤ H := one_le_zpow₀ (by norm_num) (by omega)
          have et : (2 : ℝ) ^ t = H * 2 * q * (2 : ℝ) ^ g := by
            rw [hH, hq, ← zpow_natCast, show H * 2 = H * (2 : ℝ) ^ (1 : ℤ) by norm_num, hH, ← zpow_add₀ (by norm_num), ← zpow_add₀ (by norm_num), ← zpow_add₀ (by norm_num)]
            congr 1; ring
          have ew : (2 : ℝ) ^ ((p : ℤ) - 1 + t) = H * q * q * (2 : ℝ) ^ g := by
            rw [zpow_add₀ (by norm_num), zpow_sub_one₀ (by norm_num), zpow_natCast, et]; ring
          have hSl : |w| - |a * b| ≤ |S| := by
            have := abs_sub_abs_le_abs_sub w (-(a * b))
            rw [abs_neg, sub_neg_eq_add, add_comm] at this
            rw [hS]; exact this
          have h3 : (H * q * q - (q - 1) ^ 2) * (2 : ℝ) ^ g ≤ |S| := by
            rw [ew] at ht1; nlinarith
          have h4 : (2 - u) * |e| ≤ (2 - u) * (H * q) * (2 : ℝ) ^ g := by
            rw [et] at he1
            have : |e| ≤ H * q * (2 : ℝ) ^ g := by linarith
            calc (2 - u) * |e| ≤ (2 - u) * (H * q * (2 : ℝ) ^ g) := mul_le_mul_of_nonneg_left this (by linarith)
              _ = _ := by ring
          refine h4.trans (le_trans (mul_le_mul_of_nonneg_right ?_ hgp.le) h3)
          have e1 : (2 - u) * (H * q) = 2 * H * q - H := by
            rw [show (2 - u) * (H * q) = 2 * H * q - H * (u * q) by ring, huq, mul_one]
          rw [e1]
          nlinarith [mul_nonneg (sub_nonneg.2 hH1) (by nlinarith : (0 : ℝ) ≤ q * q - 2 * q + 1)]
  have h1 : |fl S - S| ≤ u * (2 + 8 / 7 * u) * |S + e| := by
    rcases key with hk | hk
    · rw [hk, sub_self, abs_zero]; positivity
    · have hSe : |S| - |e| ≤ |S + e| := by
        have := abs_sub_abs_le_abs_sub S (-e)
        rwa [abs_neg, sub_neg_eq_add] at this
      have hS1 : |S| ≤ (2 + 8 / 7 * u) * |S + e| := by
        have hs0 := abs_nonneg S
        have e0 := abs_nonneg e
        -- (2 - u) |S + e| ≥ (1 - u) |S|
        have h5 : (1 - u) * |S| ≤ (2 - u) * |S + e| := by nlinarith
        have h6 : 2 - u ≤ (1 - u) * (2 + 8 / 7 * u) := by nlinarith
        have h7 : (1 - u) * |S| ≤ (1 - u) * ((2 + 8 / 7 * u) * |S + e|) := by
          calc (1 - u) * |S| ≤ (2 - u) * |S + e| := h5
            _ ≤ ((1 - u) * (2 + 8 / 7 * u)) * |S + e| := mul_le_mul_of_nonneg_right h6 (abs_nonneg _)
            _ = _ := by ring
        exact le_of_mul_le_mul_left h7 (by linarith)
      calc |fl S - S| ≤ u * |S| := R.err S
        _ ≤ u * ((2 + 8 / 7 * u) * |S + e|) := mul_le_mul_of_nonneg_left hS1 hu0.le
        _ = _ := by ring
  have h2 := R.err (fl S + e)
  set x := S + e with hxx
  have h3 : |fl S + e| ≤ |x| + |fl S - S| := by
    have := abs_add_le x (fl S - S)
    rwa [show x + (fl S - S) = fl S + e by rw [hxx]; ring] at this
  have h4 : |fl (fl S + e) - x| ≤ |fl (fl S + e) - (fl S + e)| + |fl S - S| := by
    have := abs_add_le (fl (fl S + e) - (fl S + e)) (fl S - S)
    rwa [show fl (fl S + e) - (fl S + e) + (fl S - S) = fl (fl S + e) - x by rw [hxx]; ring] at this
  have hx0 := abs_nonneg x
  have h5 : |fl (fl S + e) - x| ≤ (u + (1 + u) * (u * (2 + 8 / 7 * u))) * |x| := by
    nlinarith
  refine h5.trans (mul_le_mul_of_nonneg_right ?_ hx0)
  nlinarith [mul_pos hu0 hu0]

/-- Round to nearest, ties away from zero. -/
noncomputable def flAway (p : ℕ) (x : ℝ) : ℝ :=
  let k : ℤ := Int.log 2 |x| - p + 1
  if 0 ≤ x then ⌊|x| / (2 : ℝ) ^ k + 1 / 2⌋ * (2 : ℝ) ^ k else -(⌊|x| / (2 : ℝ) ^ k + 1 / 2⌋ * (2 : ℝ) ^ k)

/-- Rounding to nearest exists in every precision. -/
theorem flAway_roundsToNearest {p : ℕ} (hp : 1 ≤ p) : RoundsToNearest p (flAway p) := by
  have pos : ∀ x : ℝ, 0 < x → IsFloat p (flAway p x) ∧ ∀ y, IsFloat p y → |flAway p x - x| ≤ |y - x| := by
    intro x hx
    obtain ⟨h1, h2⟩ := scale_spec p hx.ne'
    unfold flAway
    dsimp only
    rw [if_pos hx.le]
    rw [abs_of_pos hx] at *
    set k : ℤ := Int.log 2 x - p + 1
    clear_value k
    have hk := two_zpow_pos k
    set m := ⌊x / (2 : ℝ) ^ k + 1 / 2⌋ with hm
    have f1 := Int.floor_le (x / (2 : ℝ) ^ k + 1 / 2)
    have f2 := Int.lt_floor_add_one (x / (2 : ℝ) ^ k + 1 / 2)
    rw [← hm] at f1 f2
    have grid : ∀ q : ℤ, |(m : ℝ) * (2 : ℝ) ^ k - x| ≤ |(q : ℝ) * (2 : ℝ) ^ k - x| := by
      intro q
      have e : ∀ q : ℤ, (q : ℝ) * (2 : ℝ) ^ k - x = ((q : ℝ) - x / (2 : ℝ) ^ k) * (2 : ℝ) ^ k := by
        intro q; field_simp
      rw [e, e, abs_mul, abs_mul]
      apply mul_le_mul_of_nonneg_right _ (abs_nonneg _)
      set z := x / (2 : ℝ) ^ k
      have hmz : |(m : ℝ) - z| ≤ 1 / 2 := by rw [abs_le]; constructor <;> linarith
      by_cases hq : q = m
      · rw [hq]
      · have h3 : (1 : ℝ) ≤ |(q : ℝ) - m| := by
          have : 1 ≤ |q - m| := Int.one_le_abs (sub_ne_zero.2 hq)
          exact_mod_cast this
        have h4 := abs_sub_abs_le_abs_sub ((q : ℝ) - m) (z - m)
        rw [sub_sub_sub_cancel_right, abs_sub_comm z] at h4
        linarith
    have near : ∀ y, IsFloat p y → |(m : ℝ) * (2 : ℝ) ^ k - x| ≤ |y - x| := by
      intro y hy
      by_cases hyb : (2 : ℝ) ^ ((p : ℤ) - 1 + k) ≤ |y|
      · obtain ⟨q, rfl⟩ := grid_of_isFloat hy hyb
        exact grid q
      · push Not at hyb
        have g := grid (2 ^ (p - 1))
        have e : ((2 ^ (p - 1) : ℤ) : ℝ) * (2 : ℝ) ^ k = (2 : ℝ) ^ ((p : ℤ) - 1 + k) := by
          rw [zpow_add₀ (by norm_num)]
          congr 1
          rw [show (p : ℤ) - 1 = ((p - 1 : ℕ) : ℤ) by omega, zpow_natCast]
          push_cast; rfl
        rw [e, abs_sub_comm ((2 : ℝ) ^ ((p : ℤ) - 1 + k)), abs_of_nonneg (by linarith : 0 ≤ x - (2 : ℝ) ^ ((p : ℤ) - 1 + k))] at g
        have h3 := le_abs_self y
        have h4 := neg_abs_le (y - x)
        linarith
    refine ⟨isFloat_of_grid hp ⟨m, rfl⟩ ?_, near⟩
    have hm0 : (0 : ℝ) ≤ m := by
      have : 0 ≤ m := Int.floor_nonneg.2 (by positivity)
      exact_mod_cast this
    rw [abs_of_nonneg (mul_nonneg hm0 hk.le), zpow_add₀ (by norm_num)]
    apply mul_le_mul_of_nonneg_right _ hk.le
    have h3 : x / (2 : ℝ) ^ k < (2 : ℝ) ^ (p : ℤ) := by
      rw [div_lt_iff₀ hk, ← zpow_add₀ (by norm_num)]; exact h2
    have h4 : (m : ℝ) < (2 : ℝ) ^ p + 1 := by rw [zpow_natCast] at h3; linarith
    have h5 : m < 2 ^ p + 1 := by exact_mod_cast h4
    rw [zpow_natCast]
    exact_mod_cast Int.lt_add_one_iff.1 h5
  have zero : flAway p 0 = 0 := by
    unfold flAway
    dsimp only
    rw [if_pos le_rfl]
    norm_num
  have odd : ∀ x, flAway p (-x) = -flAway p x := by
    intro x
    rcases lt_trichotomy x 0 with h | h | h
    · unfold flAway; dsimp only; rw [if_pos (by linarith), if_neg (by linarith), abs_neg, neg_neg]
    · rw [h, neg_zero, zero, neg_zero]
    · unfold flAway; dsimp only; rw [if_neg (by linarith), if_pos h.le, abs_neg]
  have negF : ∀ x, IsFloat p x → IsFloat p (-x) := by
    rintro _ ⟨m, e, rfl, hm⟩
    exact ⟨-m, e, by push_cast; ring, by rwa [abs_neg]⟩
  have all : ∀ x, IsFloat p (flAway p x) ∧ ∀ y, IsFloat p y → |flAway p x - x| ≤ |y - x| := by
    intro x
    rcases lt_trichotomy x 0 with h | h | h
    · obtain ⟨h1, h2⟩ := pos (-x) (by linarith)
      rw [odd] at h1 h2
      refine ⟨by simpa using negF _ h1, fun y hy => ?_⟩
      have := h2 (-y) (negF y hy)
      rw [neg_sub_neg, neg_sub_neg, abs_sub_comm, abs_sub_comm x] at this
      exact this
    · rw [h, zero]
      exact ⟨⟨0, 0, by simp, by simp⟩, by simp⟩
    · exact pos x h
  exact ⟨fun x => (all x).1, fun x => (all x).2, odd⟩

end Mathter
