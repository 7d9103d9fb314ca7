import Verif.Spec.Rounding

/-!
# Floating-point formats with a bounded exponent range

Specification of rounding to nearest with gradual underflow and overflow, as in IEEE 754 (`emin` is the exponent of the smallest positive number, -149
for `float` and -1074 for `double`; `Ω` is the largest finite number). `none` stands for a result that is not a finite number.
-/

namespace Mathter

/-- The finite numbers of the format are `0` and `m·2^e` with `|m| < 2^p`, `emin ≤ e`, at most `Ω` in magnitude. -/
def IsRFloat (p : ℕ) (emin : ℤ) (x : ℝ) : Prop := IsFloat p x ∧ Grid emin x

/-- Rounding to a nearest number of the format; a number of the range rounds to a finite number. -/
structure RoundsInRange (p : ℕ) (emin : ℤ) (Ω : ℝ) (fl : ℝ → Option ℝ) : Prop where
  mem : ∀ x y, fl x = some y → IsRFloat p emin y
  nearest : ∀ x y, fl x = some y → ∀ z, IsRFloat p emin z → |y - x| ≤ |z - x|
  finite : ∀ x, |x| ≤ Ω → ∃ y, fl x = some y
  overflow : ∀ x y, fl x = some y → |y| ≤ Ω

namespace RoundsInRange
variable {p : ℕ} {emin : ℤ} {Ω : ℝ} {fl : ℝ → Option ℝ}

theorem exact (h : RoundsInRange p emin Ω fl) {x : ℝ} (hx : IsRFloat p emin x) (hr : |x| ≤ Ω) : fl x = some x := by
  obtain ⟨y, hy⟩ := h.finite x hr
  have := h.nearest x y hy x hx
  rw [sub_self, abs_zero] at this
  rw [hy, sub_eq_zero.1 (abs_nonpos_iff.1 this)]

theorem zero_mem : IsRFloat p emin 0 := ⟨⟨0, 0, by simp, by simp⟩, 0, by simp⟩

/-- The relative error in the range of normal numbers. -/
theorem err_normal (hp : 1 ≤ p) (h : RoundsInRange p emin Ω fl) {x y : ℝ} (hy : fl x = some y) (hx : (2 : ℝ) ^ ((p : ℤ) - 1 + emin) ≤ |x|) :
    |y - x| ≤ (2 : ℝ) ^ (-(p : ℤ)) * |x| := by
  have hx0 : x ≠ 0 := by
    rintro rfl
    have := two_zpow_pos ((p : ℤ) - 1 + emin)
    rw [abs_zero] at hx
    linarith
  obtain ⟨k, h1, h2⟩ := exists_scale p hx0
  have hk : emin ≤ k := by
    have : (2 : ℝ) ^ ((p : ℤ) - 1 + emin) < (2 : ℝ) ^ ((p : ℤ) + k) := hx.trans_lt h2
    rw [zpow_lt_zpow_iff_right₀ (by norm_num)] at this
    omega
  obtain ⟨z, hz, hd⟩ := grid_near k x
  have hpos := two_zpow_pos k
  have hz' : Grid emin z := by
    obtain ⟨m, rfl⟩ := hz
    refine ⟨m * 2 ^ (k - emin).toNat, ?_⟩
    have : (2 : ℝ) ^ k = (2 : ℝ) ^ (k - emin).toNat * (2 : ℝ) ^ emin := by
      rw [← zpow_natCast, ← zpow_add₀ (by norm_num)]
      congr 1; omega
    rw [this]; push_cast; ring
  have hzb : |z| ≤ (2 : ℝ) ^ ((p : ℤ) + k) := by
    obtain ⟨m, rfl⟩ := hz
    have hy1 : |(m : ℝ) * (2 : ℝ) ^ k| < (2 : ℝ) ^ ((p : ℤ) + k) + (2 : ℝ) ^ k / 2 := by
      have := abs_sub_abs_le_abs_sub ((m : ℝ) * (2 : ℝ) ^ k) x
      linarith
    rw [abs_mul, abs_of_pos hpos, zpow_add₀ (by norm_num)] at hy1 ⊢
    have h3 : |(m : ℝ)| < (2 : ℝ) ^ (p : ℤ) + 1 / 2 := by
      have : |(m : ℝ)| * (2 : ℝ) ^ k < ((2 : ℝ) ^ (p : ℤ) + 1 / 2) * (2 : ℝ) ^ k := by linarith
      exact lt_of_mul_lt_mul_right this hpos.le
    apply mul_le_mul_of_nonneg_right _ hpos.le
    rw [zpow_natCast] at h3 ⊢
    have : |m| < 2 ^ p + 1 := by
      have : (|m| : ℝ) < 2 ^ p + 1 := by linarith
      exact_mod_cast this
    exact_mod_cast Int.lt_add_one_iff.1 this
  refine (h.nearest x y hy z ⟨isFloat_of_grid hp hz hzb, hz'⟩).trans (hd.trans ?_)
  have e : (2 : ℝ) ^ k / 2 = (2 : ℝ) ^ (-(p : ℤ)) * (2 : ℝ) ^ ((p : ℤ) - 1 + k) := by
    rw [← zpow_add₀ (by norm_num), show -(p : ℤ) + ((p : ℤ) - 1 + k) = k - 1 by ring, zpow_sub_one₀ (by norm_num)]
    ring
  rw [e]
  exact mul_le_mul_of_nonneg_left h1 (two_zpow_pos _).le

/-- The error of a small result. -/
theorem err_small (hp : 1 ≤ p) (h : RoundsInRange p emin Ω fl) {x y : ℝ} (hy : fl x = some y) (hx : |x| < (2 : ℝ) ^ ((p : ℤ) - 1 + emin)) :
    |y - x| ≤ (2 : ℝ) ^ emin / 2 := by
  obtain ⟨z, hz, hd⟩ := grid_near emin x
  have hpos := two_zpow_pos emin
  refine (h.nearest x y hy z ⟨isFloat_of_grid hp hz ?_, hz⟩).trans hd
  have := abs_sub_abs_le_abs_sub z x
  have e : (2 : ℝ) ^ ((p : ℤ) + emin) = 2 * (2 : ℝ) ^ ((p : ℤ) - 1 + emin) := by
    rw [show (p : ℤ) + emin = (p : ℤ) - 1 + emin + 1 by ring, zpow_add_one₀ (by norm_num)]; ring
  have e2 : (2 : ℝ) ^ emin ≤ (2 : ℝ) ^ ((p : ℤ) - 1 + emin) := zpow_le_zpow_right₀ (by norm_num) (by omega)
  linarith

theorem err (hp : 1 ≤ p) (h : RoundsInRange p emin Ω fl) {x y : ℝ} (hy : fl x = some y) :
    |y - x| ≤ (2 : ℝ) ^ (-(p : ℤ)) * |x| + (2 : ℝ) ^ emin / 2 := by
  have h1 := two_zpow_pos emin
  have h2 := mul_nonneg (two_zpow_pos (-(p : ℤ))).le (abs_nonneg x)
  rcases le_or_gt ((2 : ℝ) ^ ((p : ℤ) - 1 + emin)) |x| with hx | hx
  · have := h.err_normal hp hy hx; linarith
  · have := h.err_small hp hy hx; linarith

/-- Additions have a small relative error also for subnormal results. -/
theorem err_add (hp : 1 ≤ p) (h : RoundsInRange p emin Ω fl) {a b y : ℝ} (ha : IsRFloat p emin a) (hb : IsRFloat p emin b) (hy : fl (a + b) = some y) :
    |y - (a + b)| ≤ (2 : ℝ) ^ (-(p : ℤ)) * |a + b| := by
  rcases le_or_gt ((2 : ℝ) ^ ((p : ℤ) - 1 + emin)) |a + b| with hx | hx
  · exact h.err_normal hp hy hx
  · have hg := grid_add ha.2 hb.2
    have e2 : (2 : ℝ) ^ ((p : ℤ) - 1 + emin) ≤ (2 : ℝ) ^ ((p : ℤ) + emin) := zpow_le_zpow_right₀ (by norm_num) (by omega)
    have := h.nearest _ _ hy (a + b) ⟨isFloat_of_grid hp hg (hx.le.trans e2), hg⟩
    rw [sub_self, abs_zero] at this
    exact this.trans (mul_nonneg (two_zpow_pos _).le (abs_nonneg _))

/-- The smallest positive number. -/
theorem le_abs {x : ℝ} (hx : IsRFloat p emin x) (h0 : x ≠ 0) : (2 : ℝ) ^ emin ≤ |x| := by
  obtain ⟨-, m, rfl⟩ := hx
  have hpos := two_zpow_pos emin
  have hm : m ≠ 0 := by rintro rfl; simp at h0
  rw [abs_mul, abs_of_pos hpos]
  have : (1 : ℝ) ≤ |(m : ℝ)| := by exact_mod_cast Int.one_le_abs hm
  nlinarith

end RoundsInRange

/-- Rounding to nearest, ties away from zero, without overflow. -/
noncomputable def nearRange (p : ℕ) (emin : ℤ) (x : ℝ) : ℝ :=
  if |x| < (2 : ℝ) ^ ((p : ℤ) + emin) then round (x / (2 : ℝ) ^ emin) * (2 : ℝ) ^ emin else flAway p x

/-- Rounding to nearest, ties away from zero, in a format. -/
noncomputable def flRange (p : ℕ) (emin : ℤ) (Ω : ℝ) (x : ℝ) : Option ℝ := if |nearRange p emin x| ≤ Ω then some (nearRange p emin x) else none

private theorem abs_bound {y x Ω : ℝ} (hx : |x| ≤ Ω) (n1 : |y - x| ≤ |Ω - x|) (n2 : |y - x| ≤ |-Ω - x|) : |y| ≤ Ω := by
  have h3 := (abs_le.1 hx).1
  have h4 := (abs_le.1 hx).2
  rw [abs_of_nonneg (by linarith : 0 ≤ Ω - x)] at n1
  rw [abs_of_nonpos (by linarith : -Ω - x ≤ 0)] at n2
  have := (abs_le.1 n1).2
  have := (abs_le.1 n2).1
  exact abs_le.2 ⟨by linarith, by linarith⟩

private theorem nearest_aux (p : ℕ) (hp : 1 ≤ p) (emin : ℤ) (x : ℝ) :
    IsRFloat p emin (nearRange p emin x) ∧ ∀ z, IsRFloat p emin z → |nearRange p emin x - x| ≤ |z - x| := by
  have hpos := two_zpow_pos emin
  by_cases hx : |x| < (2 : ℝ) ^ ((p : ℤ) + emin)
  · have hy : nearRange p emin x = round (x / (2 : ℝ) ^ emin) * (2 : ℝ) ^ emin := if_pos hx
    generalize nearRange p emin x = y at hy
    have near : ∀ m : ℤ, |y - x| ≤ |m * (2 : ℝ) ^ emin - x| := by
      intro m
      have := round_le (x / (2 : ℝ) ^ emin) m
      have e : ∀ k : ℤ, |(k : ℝ) * (2 : ℝ) ^ emin - x| = |x / (2 : ℝ) ^ emin - k| * (2 : ℝ) ^ emin := by
        intro k
        rw [abs_sub_comm]
        conv_rhs => rw [← abs_of_pos hpos, ← abs_mul, abs_of_pos hpos, sub_mul, div_mul_cancel₀ _ hpos.ne']
      rw [hy, e, e]
      exact mul_le_mul_of_nonneg_right this hpos.le
    have hg : Grid emin y := ⟨_, hy⟩
    refine ⟨⟨isFloat_of_grid hp hg ?_, hg⟩, fun z hz => ?_⟩
    · have hq : (2 : ℝ) ^ ((p : ℤ) + emin) = ((2 ^ p : ℤ) : ℝ) * (2 : ℝ) ^ emin := by rw [zpow_add₀ (by norm_num), zpow_natCast]; push_cast; ring
      have n1 := near (2 ^ p)
      have n2 := near (-2 ^ p)
      rw [← hq] at n1
      rw [show ((-2 ^ p : ℤ) : ℝ) = -((2 ^ p : ℤ) : ℝ) by push_cast; ring, neg_mul, ← hq] at n2
      exact abs_bound hx.le n1 n2
    · obtain ⟨-, m, rfl⟩ := hz
      exact near m
  · have hy : nearRange p emin x = flAway p x := if_neg hx
    have R := flAway_roundsToNearest (p := p) hp
    rw [hy]
    refine ⟨⟨R.mem x, ?_⟩, fun z hz => R.nearest x z hz.1⟩
    push Not at hx
    exact grid_of_isFloat (R.mem x) ((zpow_le_zpow_right₀ (by norm_num) (by omega)).trans (pow_le_fl hp R hx))

theorem flRange_roundsInRange {p : ℕ} (hp : 1 ≤ p) {emin : ℤ} {Ω : ℝ} (hΩ : IsRFloat p emin Ω) : RoundsInRange p emin Ω (flRange p emin Ω) := by
  have aux := nearest_aux p hp emin
  have key : ∀ x y, flRange p emin Ω x = some y → y = nearRange p emin x ∧ |y| ≤ Ω := by
    intro x y h
    unfold flRange at h
    split at h
    · rename_i hh
      rw [Option.some.injEq] at h
      exact ⟨h.symm, h ▸ hh⟩
    · cases h
  refine ⟨fun x y h => ?_, fun x y h z hz => ?_, fun x hx => ?_, fun x y h => (key x y h).2⟩
  · rw [(key x y h).1]; exact (aux x).1
  · rw [(key x y h).1]; exact (aux x).2 z hz
  · have hn : IsRFloat p emin (-Ω) := by
      obtain ⟨⟨m, e, h1, h2⟩, k, h3⟩ := hΩ
      exact ⟨⟨-m, e, by rw [h1]; push_cast; ring, by rwa [abs_neg]⟩, -k, by rw [h3]; push_cast; ring⟩
    exact ⟨_, if_pos (abs_bound hx ((aux x).2 _ hΩ) ((aux x).2 _ hn))⟩

end Mathter
