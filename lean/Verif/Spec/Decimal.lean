import Verif.Spec.Rounding

/-!
# Specification of numbers with a limited number of digits

Independent of the code: numbers with `p` significant digits in base `β`, the nearest of them, and when a number survives being rounded to digits of another base
and back (Goldberg, Matula). The exponent is unbounded.
-/

namespace Mathter

/-- Numbers with at most `p` significant digits in base `β`: `m·β^e` with `|m| < β^p`. -/
def IsDigits (β p : ℕ) (x : ℝ) : Prop := ∃ m e : ℤ, x = m * (β : ℝ) ^ e ∧ |m| < (β : ℤ) ^ p

/-- `y` is a nearest number to `x` with `p` digits in base `β`; any rule for ties. -/
def NearestDigits (β p : ℕ) (x y : ℝ) : Prop := IsDigits β p y ∧ ∀ z, IsDigits β p z → |y - x| ≤ |z - x|

variable {β p : ℕ}

theorem isDigits_two {x : ℝ} : IsDigits 2 p x ↔ IsFloat p x := by
  simp [IsDigits, IsFloat]

private theorem base_pos (hβ : 2 ≤ β) : (0 : ℝ) < β := by exact_mod_cast (by omega : 0 < β)

/-- Multiples of a power of the base that are not too large. -/
theorem isDigits_of_le (hβ : 2 ≤ β) (hp : 1 ≤ p) (m e : ℤ) (hm : |m| ≤ (β : ℤ) ^ p) : IsDigits β p (m * (β : ℝ) ^ e) := by
  have b0 := base_pos hβ
  rcases lt_or_eq_of_le hm with h | h
  · exact ⟨m, e, rfl, h⟩
  have h1 : (1 : ℤ) < (β : ℤ) ^ p := one_lt_pow₀ (by exact_mod_cast hβ) (by omega)
  rcases abs_eq (by positivity) |>.1 h with h2 | h2
  · refine ⟨1, e + p, ?_, by simpa using h1⟩
    rw [h2, zpow_add₀ b0.ne', zpow_natCast]; push_cast; ring
  · refine ⟨-1, e + p, ?_, by simpa using h1⟩
    rw [h2, zpow_add₀ b0.ne', zpow_natCast]; push_cast; ring

/-- Different multiples of a number are at least as far apart. -/
private theorem mult_gap {s : ℝ} (hs : 0 < s) {a b : ℤ} (h : (a : ℝ) * s ≠ b * s) : s ≤ |(a : ℝ) * s - b * s| := by
  have hab : a ≠ b := fun e => h (by rw [e])
  rw [← sub_mul, abs_mul, abs_of_pos hs]
  have : (1 : ℝ) ≤ |((a - b : ℤ) : ℝ)| := by
    rw [← Int.cast_abs]
    exact_mod_cast Int.one_le_abs (sub_ne_zero.2 hab)
  push_cast at this
  nlinarith

private theorem lift_mult (hβ : 2 ≤ β) {m e f : ℤ} (h : f ≤ e) : ∃ k : ℤ, (m : ℝ) * (β : ℝ) ^ e = k * (β : ℝ) ^ f := by
  have b0 := base_pos hβ
  refine ⟨m * (β : ℤ) ^ (e - f).toNat, ?_⟩
  push_cast
  rw [mul_assoc, ← zpow_natCast, ← zpow_add₀ b0.ne', Int.toNat_of_nonneg (by omega), sub_add_cancel]

/-- Other numbers with `p` digits are not near. -/
theorem digits_gap (hβ : 2 ≤ β) (hp : 1 ≤ p) {x z : ℝ} (hx : IsDigits β p x) (hz : IsDigits β p z) (hne : z ≠ x) : |x| ≤ (β : ℝ) ^ p * |z - x| := by
  have b0 := base_pos hβ
  have bp : (0 : ℝ) < (β : ℝ) ^ p := by positivity
  have b2 : (2 : ℝ) ≤ (β : ℝ) ^ p := by
    calc (2 : ℝ) ≤ (β : ℝ) := by exact_mod_cast hβ
      _ = (β : ℝ) ^ 1 := (pow_one _).symm
      _ ≤ (β : ℝ) ^ p := pow_le_pow_right₀ (by exact_mod_cast (by omega : 1 ≤ β)) hp
  obtain ⟨m, e, hxe, hm⟩ := hx
  obtain ⟨k, f, hze, hk⟩ := hz
  have e0 : (0 : ℝ) < (β : ℝ) ^ e := zpow_pos b0 e
  have f0 : (0 : ℝ) < (β : ℝ) ^ f := zpow_pos b0 f
  have hm' : |(m : ℝ)| ≤ (β : ℝ) ^ p := by
    have : |m| ≤ (β : ℤ) ^ p := hm.le
    exact_mod_cast this
  have hk' : |(k : ℝ)| ≤ (β : ℝ) ^ p := by
    have : |k| ≤ (β : ℤ) ^ p := hk.le
    exact_mod_cast this
  have hxa : |x| = |(m : ℝ)| * (β : ℝ) ^ e := by rw [hxe, abs_mul, abs_of_pos e0]
  have hxb : |x| ≤ (β : ℝ) ^ p * (β : ℝ) ^ e := by rw [hxa]; exact mul_le_mul_of_nonneg_right hm' e0.le
  have hza : |z| ≤ (β : ℝ) ^ p * (β : ℝ) ^ f := by rw [hze, abs_mul, abs_of_pos f0]; exact mul_le_mul_of_nonneg_right hk' f0.le
  rcases le_or_gt e f with hef | hef
  · obtain ⟨k', hk'⟩ := lift_mult hβ (m := k) hef
    have : (β : ℝ) ^ e ≤ |z - x| := by
      rw [hze, hxe, hk']; apply mult_gap e0; rw [← hk', ← hze, ← hxe]; exact hne
    exact hxb.trans (mul_le_mul_of_nonneg_left this bp.le)
  rcases le_or_gt |x| ((β : ℝ) ^ p * (β : ℝ) ^ f) with hs | hs
  · obtain ⟨m', hm'⟩ := lift_mult hβ (m := m) hef.le
    have : (β : ℝ) ^ f ≤ |z - x| := by
      rw [hze, hxe, hm']; apply mult_gap f0; rw [← hm', ← hze, ← hxe]; exact hne
    exact hs.trans (mul_le_mul_of_nonneg_left this bp.le)
  have hd : |x| - (β : ℝ) ^ p * (β : ℝ) ^ f ≤ |z - x| := by
    have := abs_sub_abs_le_abs_sub x z
    rw [abs_sub_comm] at this
    linarith
  have hq : (β : ℝ) ^ p * (β : ℝ) ^ f = ((1 : ℤ) : ℝ) * (β : ℝ) ^ ((p : ℤ) + f) := by rw [zpow_add₀ b0.ne', zpow_natCast]; push_cast; ring
  have hxi : |x| = ((|m| : ℤ) : ℝ) * (β : ℝ) ^ e := by rw [hxa]; push_cast; rfl
  rcases le_or_gt ((p : ℤ) + f) e with h | h
  · obtain ⟨a, ha⟩ := lift_mult hβ (m := |m|) h
    have q0 : (0 : ℝ) < (β : ℝ) ^ ((p : ℤ) + f) := zpow_pos b0 _
    have := mult_gap q0 (a := a) (b := 1) (by rw [← ha, ← hxi, ← hq]; exact hs.ne')
    rw [← ha, ← hxi, ← hq, abs_of_pos (by linarith)] at this
    have h1 : (β : ℝ) ^ p * (β : ℝ) ^ f = (β : ℝ) ^ ((p : ℤ) + f) := by rw [hq]; push_cast; ring
    have h2 : |x| ≤ 2 * |z - x| := by linarith
    exact h2.trans (mul_le_mul_of_nonneg_right b2 (abs_nonneg _))
  · obtain ⟨a, ha⟩ := lift_mult hβ (m := 1) h.le
    have := mult_gap e0 (a := |m|) (b := a) (by rw [← ha, ← hxi, ← hq]; exact hs.ne')
    rw [← ha, ← hxi, ← hq, abs_of_pos (by linarith)] at this
    exact hxb.trans (mul_le_mul_of_nonneg_left (this.trans hd) bp.le)

/-- There is a nearest number with `p` digits, and its distance. -/
theorem exists_nearestDigits (hβ : 2 ≤ β) (hp : 1 ≤ p) (x : ℝ) : ∃ y, NearestDigits β p x y ∧ 2 * (β : ℝ) ^ (p - 1) * |y - x| ≤ |x| := by
  have b0 := base_pos hβ
  by_cases hx : x = 0
  · exact ⟨0, ⟨⟨0, 0, by simp, by rw [abs_zero]; exact pow_pos (by exact_mod_cast (by omega : 0 < β)) p⟩, fun z _ => by rw [hx]; simp⟩, by rw [hx]; simp⟩
  have hpos : 0 < |x| := abs_pos.2 hx
  set k := Int.log β |x| with hk
  have k1 : (β : ℝ) ^ k ≤ |x| := Int.zpow_log_le_self (by omega) hpos
  have k2 : |x| < (β : ℝ) ^ (k + 1) := Int.lt_zpow_succ_log_self (by omega) _
  set g : ℤ := k + 1 - p with hg
  have s0 : (0 : ℝ) < (β : ℝ) ^ g := zpow_pos b0 g
  have es : (β : ℝ) ^ k = (β : ℝ) ^ (p - 1) * (β : ℝ) ^ g := by
    rw [← zpow_natCast, ← zpow_add₀ b0.ne']; congr 1; push_cast [Nat.cast_sub hp]; omega
  have et : (β : ℝ) ^ (k + 1) = (β : ℝ) ^ p * (β : ℝ) ^ g := by
    rw [← zpow_natCast, ← zpow_add₀ b0.ne']; congr 1; omega
  set a := round (x / (β : ℝ) ^ g) with ha
  have hr := abs_sub_round (x / (β : ℝ) ^ g)
  have hy : |(a : ℝ) * (β : ℝ) ^ g - x| = |x / (β : ℝ) ^ g - a| * (β : ℝ) ^ g := by
    rw [abs_sub_comm, ← abs_of_pos s0, ← abs_mul, abs_of_pos s0]; congr 1; field_simp
  have hgrid : ∀ b : ℤ, |(a : ℝ) * (β : ℝ) ^ g - x| ≤ |(b : ℝ) * (β : ℝ) ^ g - x| := fun b => by
    have e : |(b : ℝ) * (β : ℝ) ^ g - x| = |x / (β : ℝ) ^ g - b| * (β : ℝ) ^ g := by
      rw [abs_sub_comm, ← abs_of_pos s0, ← abs_mul, abs_of_pos s0]; congr 1; field_simp
    rw [hy, e]
    exact mul_le_mul_of_nonneg_right (round_le _ b) s0.le
  have hdig : IsDigits β p ((a : ℝ) * (β : ℝ) ^ g) := by
    refine isDigits_of_le hβ hp a g ?_
    have h1 : |(a : ℝ)| < (β : ℝ) ^ p + 1 := by
      have h2 : |x / (β : ℝ) ^ g| < (β : ℝ) ^ p := by rw [abs_div, abs_of_pos s0, div_lt_iff₀ s0, ← et]; exact k2
      have := abs_sub_abs_le_abs_sub (a : ℝ) (x / (β : ℝ) ^ g)
      rw [abs_sub_comm] at this
      linarith
    have : |a| < (β : ℤ) ^ p + 1 := by exact_mod_cast h1
    omega
  refine ⟨a * (β : ℝ) ^ g, ⟨hdig, fun z hz => ?_⟩, ?_⟩
  · obtain ⟨m, f, hze, hm⟩ := hz
    rcases le_or_gt g f with h | h
    · obtain ⟨b, hb⟩ := lift_mult hβ (m := m) h
      rw [hze, hb]; exact hgrid b
    · -- below the grid the numbers are smaller than the power of the base below `x`
      have zk : |z| ≤ (β : ℝ) ^ k := by
        have f0 : (0 : ℝ) < (β : ℝ) ^ f := zpow_pos b0 f
        have hm' : |(m : ℝ)| ≤ (β : ℝ) ^ p := by
          have : |m| ≤ (β : ℤ) ^ p := hm.le
          exact_mod_cast this
        rw [hze, abs_mul, abs_of_pos f0]
        refine (mul_le_mul_of_nonneg_right hm' f0.le).trans ?_
        rw [← zpow_natCast, ← zpow_add₀ b0.ne']
        exact zpow_le_zpow_right₀ (by exact_mod_cast (by omega : 1 ≤ β)) (by omega)
      rcases lt_or_gt_of_ne hx with hn | hn
      · have := hgrid (-(β : ℤ) ^ (p - 1))
        push_cast at this
        rw [neg_mul, ← es] at this
        rw [abs_of_neg hn] at k1
        rw [abs_of_nonneg (by linarith : 0 ≤ -(β : ℝ) ^ k - x)] at this
        refine this.trans (le_trans ?_ (le_abs_self _))
        linarith [neg_abs_le z]
      · have := hgrid ((β : ℤ) ^ (p - 1))
        push_cast at this
        rw [← es] at this
        rw [abs_of_pos hn] at k1
        rw [abs_of_nonpos (by linarith : (β : ℝ) ^ k - x ≤ 0)] at this
        refine this.trans (le_trans ?_ (neg_le_abs _))
        linarith [le_abs_self z]
  · rw [hy]
    have := mul_le_mul_of_nonneg_right hr s0.le
    have h2 := mul_le_mul_of_nonneg_left this (show 0 ≤ 2 * (β : ℝ) ^ (p - 1) by positivity)
    refine h2.trans (le_trans (le_of_eq ?_) k1)
    rw [es]; ring

/-- The relative error of a nearest number with `p` digits. -/
theorem NearestDigits.err (hβ : 2 ≤ β) (hp : 1 ≤ p) {x y : ℝ} (h : NearestDigits β p x y) : 2 * (β : ℝ) ^ (p - 1) * |y - x| ≤ |x| := by
  obtain ⟨z, hz, hd⟩ := exists_nearestDigits hβ hp x
  exact (mul_le_mul_of_nonneg_left (h.2 z hz.1) (by positivity)).trans hd

/-- A number with `p` digits in base `β` survives being rounded to `q` digits in base `γ` and back, if `β^p < γ^(q-1)`. -/
theorem digits_round_trip {γ q : ℕ} (hβ : 2 ≤ β) (hp : 1 ≤ p) (hγ : 2 ≤ γ) (hq : 1 ≤ q) (hpq : β ^ p < γ ^ (q - 1)) {x d y : ℝ} (hx : IsDigits β p x)
    (hd : NearestDigits γ q x d) (hy : NearestDigits β p d y) : y = x := by
  by_contra hne
  have k1 := hd.err hγ hq
  have k2 := digits_gap hβ hp hx hy.1 hne
  have k3 := hy.2 x hx
  have k4 := abs_sub_abs_le_abs_sub (y - x) (d - x)
  rw [sub_sub_sub_cancel_right] at k4
  rw [abs_sub_comm x d] at k3
  have k5 : |y - x| ≤ 2 * |d - x| := by linarith
  have hpos : 0 < |y - x| := abs_pos.2 (sub_ne_zero.2 hne)
  have hc : (β : ℝ) ^ p < (γ : ℝ) ^ (q - 1) := by exact_mod_cast hpq
  have k6 := mul_lt_mul_of_pos_right hc hpos
  have k7 := mul_le_mul_of_nonneg_left k5 (show (0 : ℝ) ≤ (γ : ℝ) ^ (q - 1) by positivity)
  linarith

end Mathter
