import Verif.Model.RoundedUtility
import Verif.Lemmas.RoundedOne
import Mathlib.Analysis.Real.Pi.Bounds
import Mathlib.Analysis.Complex.ExponentialBounds
import Mathlib.Analysis.Real.Sqrt
import Mathlib.Tactic.NormNum.Abs

/-!
# Property C154: the constants and the conversion of angles in floating point

For `float` (24 bits), `double` (53) and the 80-bit `long double` (64), with a `long double` of the same precision or of at least four bits more, the constants are
the numbers of the format nearest to the mathematical constants, so that the two roundings on the way from the literal do no harm. The conversions are then accurate
to three rounding errors, and a conversion there and back to four.
-/

namespace Mathter.Props
open Mathter

/-- `x` is a number of the format, and none is closer to `c`. -/
def NearestFloat (p : ℕ) (c x : ℝ) : Prop := IsFloat p x ∧ ∀ y, IsFloat p y → |x - c| ≤ |y - c|

/-- A float other than `z * 2 ^ e` is at least `2 ^ e` away from it. -/
private theorem apart {p : ℕ} (hp : 1 ≤ p) {z e : ℤ} (hz1 : 2 ^ (p - 1) < z) {y : ℝ} (hy : IsFloat p y) (hne : y ≠ z * (2 : ℝ) ^ e) :
    (2 : ℝ) ^ e ≤ |y - z * (2 : ℝ) ^ e| := by
  have h2 := two_zpow_pos e
  have hz : ((2 : ℝ) ^ (p - 1) + 1) ≤ z := by exact_mod_cast hz1
  have hpe : (2 : ℝ) ^ ((p : ℤ) - 1 + e) = (2 : ℝ) ^ (p - 1) * (2 : ℝ) ^ e := by
    rw [zpow_add₀ (by norm_num), ← zpow_natCast]
    congr 2
    omega
  by_cases h : (2 : ℝ) ^ ((p : ℤ) - 1 + e) ≤ |y|
  · obtain ⟨m, rfl⟩ := grid_of_isFloat hy h
    have hmz : m - z ≠ 0 := by
      intro e'
      apply hne
      rw [show m = z by omega]
    have : (1 : ℝ) ≤ |((m - z : ℤ) : ℝ)| := by exact_mod_cast Int.one_le_abs hmz
    rw [← sub_mul, abs_mul, abs_of_pos h2]
    push_cast at this
    exact le_mul_of_one_le_left h2.le this
  · push Not at h
    rw [hpe] at h
    have h1 := mul_le_mul_of_nonneg_right hz h2.le
    have := (abs_lt.1 h).2
    rw [abs_sub_comm]
    refine le_trans ?_ (le_abs_self _)
    linarith

private theorem nearest_of_close {p : ℕ} (hp : 1 ≤ p) {z e : ℤ} (hz1 : 2 ^ (p - 1) < z) (hz2 : z < 2 ^ p) {c : ℝ}
    (hc : |c - z * (2 : ℝ) ^ e| < (2 : ℝ) ^ e / 2) : NearestFloat p c (z * (2 : ℝ) ^ e) ∧ ∀ y, NearestFloat p c y → y = z * (2 : ℝ) ^ e := by
  have hz0 : 0 < z := lt_trans (by positivity) hz1
  have hf : IsFloat p (z * (2 : ℝ) ^ e) := ⟨z, e, rfl, by rwa [abs_of_pos hz0]⟩
  have far : ∀ y, IsFloat p y → y ≠ z * (2 : ℝ) ^ e → |z * (2 : ℝ) ^ e - c| < |y - c| := by
    intro y hy hne
    have h1 := apart hp hz1 hy hne
    have h2 := abs_sub_le y c (z * (2 : ℝ) ^ e)
    rw [abs_sub_comm _ c]
    linarith
  refine ⟨⟨hf, fun y hy => ?_⟩, fun y hy => ?_⟩
  · by_cases h : y = z * (2 : ℝ) ^ e
    · rw [h]
    · exact (far y hy h).le
  · by_contra h
    exact absurd (hy.2 _ hf) (not_le.2 (far y hy.1 h))

private theorem round_nearest {p : ℕ} {fl : ℝ → ℝ} (hfl : RoundsToNearest p fl) (x : ℝ) : NearestFloat p x (fl x) := ⟨hfl.mem x, hfl.nearest x⟩

/-- Rounding the literal twice yields the nearest number. -/
private theorem nearest_const {p P : ℕ} (hp : 1 ≤ p) {fl flL : ℝ → ℝ} (hfl : RoundsToNearest p fl) (hflL : RoundsToNearest P flL) (hP : P = p ∨ p + 4 ≤ P)
    {lit c : ℝ} (z e : ℤ) (hz1 : 2 ^ (p - 1) < z) (hz2 : z < 2 ^ p) (h1 : |lit - z * (2 : ℝ) ^ e| + 1 / 2 ^ (p + 4) * |lit| < (2 : ℝ) ^ e / 2)
    (h2 : |c - z * (2 : ℝ) ^ e| < (2 : ℝ) ^ e / 2) : NearestFloat p c (Fl.constant fl flL lit) := by
  have hu : 0 ≤ 1 / 2 ^ (p + 4) * |lit| := by positivity
  have key : Fl.constant fl flL lit = z * (2 : ℝ) ^ e := by
    unfold Fl.constant
    rcases hP with rfl | hP
    · have e1 : flL lit = z * (2 : ℝ) ^ e := (nearest_of_close hp hz1 hz2 (by linarith)).2 _ (round_nearest hflL lit)
      rw [e1]
      exact (nearest_of_close hp hz1 hz2 (c := z * (2 : ℝ) ^ e) (by rw [sub_self, abs_zero]; positivity)).2 _ (round_nearest hfl _)
    · have herr := (hflL.rounding (by omega)).err lit
      have hle : (2 : ℝ) ^ (-(P : ℤ)) ≤ 1 / 2 ^ (p + 4) := by
        rw [zpow_neg, zpow_natCast, ← one_div]
        exact one_div_le_one_div_of_le (by positivity) (pow_le_pow_right₀ (by norm_num) hP)
      have := mul_le_mul_of_nonneg_right hle (abs_nonneg lit)
      have h3 := abs_sub_le (flL lit) lit (z * (2 : ℝ) ^ e)
      exact (nearest_of_close hp hz1 hz2 (by linarith)).2 _ (round_nearest hfl _)
  rw [key]
  exact (nearest_of_close hp hz1 hz2 h2).1

/-- C154: `Constants::Pi`. -/
theorem C154_pi {p P : ℕ} (hp : p = 24 ∨ p = 53 ∨ p = 64) {fl flL : ℝ → ℝ} (hfl : RoundsToNearest p fl) (hflL : RoundsToNearest P flL)
    (hP : P = p ∨ p + 4 ≤ P) : NearestFloat p Real.pi (Fl.constant fl flL Fl.piLit) := by
  have b1 := Real.pi_gt_d20
  have b2 := Real.pi_lt_d20
  rcases hp with rfl | rfl | rfl
  · refine nearest_const (by norm_num) hfl hflL hP 13176795 (-22) (by norm_num) (by norm_num) (by unfold Fl.piLit; norm_num) ?_
    rw [abs_lt]; norm_num; constructor <;> linarith
  · refine nearest_const (by norm_num) hfl hflL hP 7074237752028440 (-51) (by norm_num) (by norm_num) (by unfold Fl.piLit; norm_num) ?_
    rw [abs_lt]; norm_num; constructor <;> linarith
  · refine nearest_const (by norm_num) hfl hflL hP 14488038916154245685 (-62) (by norm_num) (by norm_num) (by unfold Fl.piLit; norm_num) ?_
    rw [abs_lt]; norm_num; constructor <;> linarith

/-- C154: `Constants::PiHalf`. -/
theorem C154_pi_half {p P : ℕ} (hp : p = 24 ∨ p = 53 ∨ p = 64) {fl flL : ℝ → ℝ} (hfl : RoundsToNearest p fl) (hflL : RoundsToNearest P flL)
    (hP : P = p ∨ p + 4 ≤ P) : NearestFloat p (Real.pi / 2) (Fl.constant fl flL Fl.piHalfLit) := by
  have b1 := Real.pi_gt_d20
  have b2 := Real.pi_lt_d20
  rcases hp with rfl | rfl | rfl
  · refine nearest_const (by norm_num) hfl hflL hP 13176795 (-23) (by norm_num) (by norm_num) (by unfold Fl.piHalfLit; norm_num) ?_
    rw [abs_lt]; norm_num; constructor <;> linarith
  · refine nearest_const (by norm_num) hfl hflL hP 7074237752028440 (-52) (by norm_num) (by norm_num) (by unfold Fl.piHalfLit; norm_num) ?_
    rw [abs_lt]; norm_num; constructor <;> linarith
  · refine nearest_const (by norm_num) hfl hflL hP 14488038916154245685 (-63) (by norm_num) (by norm_num) (by unfold Fl.piHalfLit; norm_num) ?_
    rw [abs_lt]; norm_num; constructor <;> linarith

/-- C154: `Constants::PiFourth`. -/
theorem C154_pi_fourth {p P : ℕ} (hp : p = 24 ∨ p = 53 ∨ p = 64) {fl flL : ℝ → ℝ} (hfl : RoundsToNearest p fl) (hflL : RoundsToNearest P flL)
    (hP : P = p ∨ p + 4 ≤ P) : NearestFloat p (Real.pi / 4) (Fl.constant fl flL Fl.piFourthLit) := by
  have b1 := Real.pi_gt_d20
  have b2 := Real.pi_lt_d20
  rcases hp with rfl | rfl | rfl
  · refine nearest_const (by norm_num) hfl hflL hP 13176795 (-24) (by norm_num) (by norm_num) (by unfold Fl.piFourthLit; norm_num) ?_
    rw [abs_lt]; norm_num; constructor <;> linarith
  · refine nearest_const (by norm_num) hfl hflL hP 7074237752028440 (-53) (by norm_num) (by norm_num) (by unfold Fl.piFourthLit; norm_num) ?_
    rw [abs_lt]; norm_num; constructor <;> linarith
  · refine nearest_const (by norm_num) hfl hflL hP 14488038916154245685 (-64) (by norm_num) (by norm_num) (by unfold Fl.piFourthLit; norm_num) ?_
    rw [abs_lt]; norm_num; constructor <;> linarith

/-- C154: `Constants::E`. -/
theorem C154_e {p P : ℕ} (hp : p = 24 ∨ p = 53 ∨ p = 64) {fl flL : ℝ → ℝ} (hfl : RoundsToNearest p fl) (hflL : RoundsToNearest P flL)
    (hP : P = p ∨ p + 4 ≤ P) : NearestFloat p (Real.exp 1) (Fl.constant fl flL Fl.eLit) := by
  obtain ⟨b1, b2⟩ := abs_le.1 Real.exp_one_near_20
  rcases hp with rfl | rfl | rfl
  · refine nearest_const (by norm_num) hfl hflL hP 11401300 (-22) (by norm_num) (by norm_num) (by unfold Fl.eLit; norm_num) ?_
    rw [abs_lt]; norm_num at b1 b2 ⊢; constructor <;> linarith
  · refine nearest_const (by norm_num) hfl hflL hP 6121026514868073 (-51) (by norm_num) (by norm_num) (by unfold Fl.eLit; norm_num) ?_
    rw [abs_lt]; norm_num at b1 b2 ⊢; constructor <;> linarith
  · refine nearest_const (by norm_num) hfl hflL hP 12535862302449814171 (-62) (by norm_num) (by norm_num) (by unfold Fl.eLit; norm_num) ?_
    rw [abs_lt]; norm_num at b1 b2 ⊢; constructor <;> linarith

private theorem sqrt_bounds : (1.41421356237309504880168872 : ℝ) < √2 ∧ √2 < 1.41421356237309504880168873 :=
  ⟨Real.lt_sqrt_of_sq_lt (by norm_num), (Real.sqrt_lt' (by norm_num)).2 (by norm_num)⟩

/-- C154: `Constants::Sqrt2`. -/
theorem C154_sqrt2 {p P : ℕ} (hp : p = 24 ∨ p = 53 ∨ p = 64) {fl flL : ℝ → ℝ} (hfl : RoundsToNearest p fl) (hflL : RoundsToNearest P flL)
    (hP : P = p ∨ p + 4 ≤ P) : NearestFloat p √2 (Fl.constant fl flL Fl.sqrt2Lit) := by
  obtain ⟨b1, b2⟩ := sqrt_bounds
  rcases hp with rfl | rfl | rfl
  · refine nearest_const (by norm_num) hfl hflL hP 11863283 (-23) (by norm_num) (by norm_num) (by unfold Fl.sqrt2Lit; norm_num) ?_
    rw [abs_lt]; norm_num at b1 b2 ⊢; constructor <;> linarith
  · refine nearest_const (by norm_num) hfl hflL hP 6369051672525773 (-52) (by norm_num) (by norm_num) (by unfold Fl.sqrt2Lit; norm_num) ?_
    rw [abs_lt]; norm_num at b1 b2 ⊢; constructor <;> linarith
  · refine nearest_const (by norm_num) hfl hflL hP 13043817825332782212 (-63) (by norm_num) (by norm_num) (by unfold Fl.sqrt2Lit; norm_num) ?_
    rw [abs_lt]; norm_num at b1 b2 ⊢; constructor <;> linarith

/-- C154: `Constants::SqrtHalf`. -/
theorem C154_sqrt_half {p P : ℕ} (hp : p = 24 ∨ p = 53 ∨ p = 64) {fl flL : ℝ → ℝ} (hfl : RoundsToNearest p fl) (hflL : RoundsToNearest P flL)
    (hP : P = p ∨ p + 4 ≤ P) : NearestFloat p √(1 / 2) (Fl.constant fl flL Fl.sqrtHalfLit) := by
  have e : √(1 / 2 : ℝ) = √2 / 2 := by
    rw [Real.sqrt_eq_iff_mul_self_eq (by norm_num) (by positivity)]
    have := Real.mul_self_sqrt (show (0 : ℝ) ≤ 2 by norm_num)
    nlinarith
  rw [e]
  obtain ⟨b1, b2⟩ := sqrt_bounds
  rcases hp with rfl | rfl | rfl
  · refine nearest_const (by norm_num) hfl hflL hP 11863283 (-24) (by norm_num) (by norm_num) (by unfold Fl.sqrtHalfLit; norm_num) ?_
    rw [abs_lt]; norm_num at b1 b2 ⊢; constructor <;> linarith
  · refine nearest_const (by norm_num) hfl hflL hP 6369051672525773 (-53) (by norm_num) (by norm_num) (by unfold Fl.sqrtHalfLit; norm_num) ?_
    rw [abs_lt]; norm_num at b1 b2 ⊢; constructor <;> linarith
  · refine nearest_const (by norm_num) hfl hflL hP 13043817825332782212 (-64) (by norm_num) (by norm_num) (by unfold Fl.sqrtHalfLit; norm_num) ?_
    rw [abs_lt]; norm_num at b1 b2 ⊢; constructor <;> linarith

private theorem nearest_rel {p : ℕ} (hp : 1 ≤ p) {c x : ℝ} (h : NearestFloat p c x) : |x - c| ≤ (2 : ℝ) ^ (-(p : ℤ)) * |c| := by
  have hr := flAway_roundsToNearest hp
  exact (h.2 _ (hr.mem c)).trans ((hr.rounding hp).err c)

private theorem fl_180 {p : ℕ} (hp : 6 ≤ p) {fl : ℝ → ℝ} (hfl : RoundsToNearest p fl) : fl 180 = 180 := by
  refine hfl.fixed ⟨45, 2, by norm_num, ?_⟩
  have : (2 : ℤ) ^ 6 ≤ 2 ^ p := pow_le_pow_right₀ (by norm_num) hp
  norm_num at this ⊢
  linarith

/-- The rounded number as the exact one times a factor close to one. -/
private theorem factor {fl : ℝ → ℝ} {u : ℝ} (h : Rounding fl u) (x : ℝ) : ∃ d, |d| ≤ u ∧ fl x = x * (1 + d) := by
  by_cases hx : x = 0
  · subst hx
    have := h.err 0
    rw [abs_zero, mul_zero, sub_zero] at this
    exact ⟨0, by simpa using h.u_nonneg, by simpa using this⟩
  · refine ⟨(fl x - x) / x, ?_, by field_simp; ring⟩
    rw [abs_div, div_le_iff₀ (abs_pos.2 hx)]
    exact h.err x

/-- C154: the computed angle in degrees is within about three rounding errors of the true one. -/
theorem C154_rad2deg {p P : ℕ} (hp : p = 24 ∨ p = 53 ∨ p = 64) {fl flL : ℝ → ℝ} (hfl : RoundsToNearest p fl) (hflL : RoundsToNearest P flL)
    (hP : P = p ∨ p + 4 ≤ P) (x : ℝ) :
    |Fl.rad2Deg fl flL x - x * 180 / Real.pi|
      ≤ ((1 + (2 : ℝ) ^ (-(p : ℤ))) ^ 2 / (1 - (2 : ℝ) ^ (-(p : ℤ))) - 1) * |x * 180 / Real.pi| := by
  have hp6 : 6 ≤ p := by omega
  have hr := hfl.rounding (show 1 ≤ p by omega)
  have hpi := nearest_rel (by omega) (C154_pi hp hfl hflL hP)
  set u := (2 : ℝ) ^ (-(p : ℤ)) with hu
  have hu0 : 0 < u := two_zpow_pos _
  have hu1 : u < 1 := by
    rw [hu]
    exact zpow_lt_one_of_neg₀ (by norm_num) (by omega)
  set q := Fl.constant fl flL Fl.piLit
  have hpos := Real.pi_pos
  obtain ⟨d1, hd1, e1⟩ := factor hr (x / q)
  obtain ⟨d2, hd2, e2⟩ := factor hr (fl (x / q) * 180)
  obtain ⟨d3, hd3, e3⟩ : ∃ d, |d| ≤ u ∧ q = Real.pi * (1 + d) := by
    refine ⟨(q - Real.pi) / Real.pi, ?_, by field_simp; ring⟩
    rw [abs_div, div_le_iff₀ (abs_pos.2 hpos.ne')]
    exact hpi
  obtain ⟨l1, g1⟩ := abs_le.1 hd1
  obtain ⟨l2, g2⟩ := abs_le.1 hd2
  obtain ⟨l3, g3⟩ := abs_le.1 hd3
  have hq3 : 0 < 1 + d3 := by linarith
  have hval : Fl.rad2Deg fl flL x = x * 180 / Real.pi * ((1 + d1) * (1 + d2) / (1 + d3)) := by
    unfold Fl.rad2Deg
    rw [fl_180 hp6 hfl, e2, e1, e3]
    field_simp
  rw [hval, show ∀ a b : ℝ, a * b - a = (b - 1) * a by intros; ring, abs_mul]
  refine mul_le_mul_of_nonneg_right ?_ (abs_nonneg _)
  have hup : (1 + d1) * (1 + d2) / (1 + d3) ≤ (1 + u) ^ 2 / (1 - u) := by
    apply div_le_div₀ (by positivity) _ (by linarith) (by linarith)
    rw [sq]
    exact mul_le_mul (by linarith) (by linarith) (by linarith) (by linarith)
  have hlo : (1 - u) ^ 2 / (1 + u) ≤ (1 + d1) * (1 + d2) / (1 + d3) := by
    apply div_le_div₀ (mul_nonneg (by linarith) (by linarith)) _ hq3 (by linarith)
    rw [sq]
    exact mul_le_mul (by linarith) (by linarith) (by linarith) (by linarith)
  have hsum : 2 ≤ (1 + u) ^ 2 / (1 - u) + (1 - u) ^ 2 / (1 + u) := by
    rw [div_add_div _ _ (by linarith) (by linarith), le_div_iff₀ (mul_pos (by linarith) (by linarith))]
    nlinarith [sq_nonneg u]
  rw [abs_le]
  constructor <;> linarith

/-- C154: the computed angle in radians is within about three rounding errors of the true one. -/
theorem C154_deg2rad {p P : ℕ} (hp : p = 24 ∨ p = 53 ∨ p = 64) {fl flL : ℝ → ℝ} (hfl : RoundsToNearest p fl) (hflL : RoundsToNearest P flL)
    (hP : P = p ∨ p + 4 ≤ P) (x : ℝ) :
    |Fl.deg2Rad fl flL x - x * Real.pi / 180| ≤ ((1 + (2 : ℝ) ^ (-(p : ℤ))) ^ 3 - 1) * |x * Real.pi / 180| := by
  have hp6 : 6 ≤ p := by omega
  have hr := hfl.rounding (show 1 ≤ p by omega)
  have hpi := nearest_rel (by omega) (C154_pi hp hfl hflL hP)
  set u := (2 : ℝ) ^ (-(p : ℤ)) with hu
  have hu0 : 0 < u := two_zpow_pos _
  have hu1 : u < 1 := by
    rw [hu]
    exact zpow_lt_one_of_neg₀ (by norm_num) (by omega)
  set q := Fl.constant fl flL Fl.piLit
  have hpos := Real.pi_pos
  obtain ⟨d1, hd1, e1⟩ := factor hr (x / 180)
  obtain ⟨d2, hd2, e2⟩ := factor hr (fl (x / 180) * q)
  obtain ⟨d3, hd3, e3⟩ : ∃ d, |d| ≤ u ∧ q = Real.pi * (1 + d) := by
    refine ⟨(q - Real.pi) / Real.pi, ?_, by field_simp; ring⟩
    rw [abs_div, div_le_iff₀ (abs_pos.2 hpos.ne')]
    exact hpi
  obtain ⟨l1, g1⟩ := abs_le.1 hd1
  obtain ⟨l2, g2⟩ := abs_le.1 hd2
  obtain ⟨l3, g3⟩ := abs_le.1 hd3
  have hval : Fl.deg2Rad fl flL x = x * Real.pi / 180 * ((1 + d1) * (1 + d2) * (1 + d3)) := by
    unfold Fl.deg2Rad
    rw [fl_180 hp6 hfl, e2, e1, e3]
    ring
  rw [hval, show ∀ a b : ℝ, a * b - a = (b - 1) * a by intros; ring, abs_mul]
  refine mul_le_mul_of_nonneg_right ?_ (abs_nonneg _)
  have hup : (1 + d1) * (1 + d2) * (1 + d3) ≤ (1 + u) ^ 3 := by
    rw [pow_succ, sq]
    exact mul_le_mul (mul_le_mul (by linarith) (by linarith) (by linarith) (by linarith)) (by linarith) (by linarith) (by positivity)
  have hlo : (1 - u) ^ 3 ≤ (1 + d1) * (1 + d2) * (1 + d3) := by
    rw [pow_succ, sq]
    exact mul_le_mul (mul_le_mul (by linarith) (by linarith) (by linarith) (by linarith)) (by linarith) (by linarith)
      (mul_nonneg (by linarith) (by linarith))
  rw [abs_le]
  constructor
  · nlinarith [sq_nonneg u]
  · linarith

/-- C154: radians to degrees and back: four rounding errors, whatever the precision of the format and of `Pi`. -/
theorem C154_round_trip {p P : ℕ} (hp : 6 ≤ p) (hPp : 6 ≤ P) {fl flL : ℝ → ℝ} (hfl : RoundsToNearest p fl) (hflL : RoundsToNearest P flL) (x : ℝ) :
    |Fl.deg2Rad fl flL (Fl.rad2Deg fl flL x) - x| ≤ ((1 + (2 : ℝ) ^ (-(p : ℤ))) ^ 4 - 1) * |x|
      ∧ |Fl.rad2Deg fl flL (Fl.deg2Rad fl flL x) - x| ≤ ((1 + (2 : ℝ) ^ (-(p : ℤ))) ^ 4 - 1) * |x| := by
  have hr := hfl.rounding (show 1 ≤ p by omega)
  have hrL := hflL.rounding (show 1 ≤ P by omega)
  have hq : Fl.constant fl flL Fl.piLit ≠ 0 := by
    obtain ⟨a, ha, ea⟩ := factor hrL Fl.piLit
    obtain ⟨b, hb, eb⟩ := factor hr (flL Fl.piLit)
    have s1 : (2 : ℝ) ^ (-(P : ℤ)) < 1 := zpow_lt_one_of_neg₀ (by norm_num) (by omega)
    have s2 : (2 : ℝ) ^ (-(p : ℤ)) < 1 := zpow_lt_one_of_neg₀ (by norm_num) (by omega)
    have t1 := (abs_le.1 ha).1
    have t2 := (abs_le.1 hb).1
    unfold Fl.constant
    rw [eb, ea]
    refine mul_ne_zero (mul_ne_zero (by unfold Fl.piLit; norm_num) ?_) ?_
    · have : 0 < 1 + a := by linarith
      exact this.ne'
    · have : 0 < 1 + b := by linarith
      exact this.ne'
  set u := (2 : ℝ) ^ (-(p : ℤ)) with hu
  have hu0 : 0 < u := two_zpow_pos _
  have hu1 : u < 1 := by
    rw [hu]
    exact zpow_lt_one_of_neg₀ (by norm_num) (by omega)
  set q := Fl.constant fl flL Fl.piLit with hqd
  have key : ∀ y, (∃ d1 d2 d3 d4 : ℝ, |d1| ≤ u ∧ |d2| ≤ u ∧ |d3| ≤ u ∧ |d4| ≤ u ∧ y = x * ((1 + d1) * (1 + d2) * ((1 + d3) * (1 + d4)))) →
      |y - x| ≤ ((1 + u) ^ 4 - 1) * |x| := by
    rintro y ⟨d1, d2, d3, d4, hd1, hd2, hd3, hd4, rfl⟩
    obtain ⟨l1, g1⟩ := abs_le.1 hd1
    obtain ⟨l2, g2⟩ := abs_le.1 hd2
    obtain ⟨l3, g3⟩ := abs_le.1 hd3
    obtain ⟨l4, g4⟩ := abs_le.1 hd4
    rw [show ∀ a b : ℝ, a * b - a = (b - 1) * a by intros; ring, abs_mul]
    refine mul_le_mul_of_nonneg_right ?_ (abs_nonneg _)
    have hup : (1 + d1) * (1 + d2) * ((1 + d3) * (1 + d4)) ≤ (1 + u) * (1 + u) * ((1 + u) * (1 + u)) :=
      mul_le_mul (mul_le_mul (by linarith) (by linarith) (by linarith) (by linarith))
        (mul_le_mul (by linarith) (by linarith) (by linarith) (by linarith)) (mul_nonneg (by linarith) (by linarith)) (by positivity)
    have hlo : (1 - u) * (1 - u) * ((1 - u) * (1 - u)) ≤ (1 + d1) * (1 + d2) * ((1 + d3) * (1 + d4)) :=
      mul_le_mul (mul_le_mul (by linarith) (by linarith) (by linarith) (by linarith))
        (mul_le_mul (by linarith) (by linarith) (by linarith) (by linarith)) (mul_nonneg (by linarith) (by linarith))
        (mul_nonneg (by linarith) (by linarith))
    rw [abs_le]
    constructor
    · nlinarith [sq_nonneg u, sq_nonneg (u ^ 2)]
    · nlinarith
  constructor
  · apply key
    unfold Fl.deg2Rad Fl.rad2Deg
    rw [fl_180 hp hfl, ← hqd]
    obtain ⟨d1, hd1, e1⟩ := factor hr (x / q)
    obtain ⟨d2, hd2, e2⟩ := factor hr (fl (x / q) * 180)
    obtain ⟨d3, hd3, e3⟩ := factor hr (fl (fl (x / q) * 180) / 180)
    obtain ⟨d4, hd4, e4⟩ := factor hr (fl (fl (fl (x / q) * 180) / 180) * q)
    refine ⟨d1, d2, d3, d4, hd1, hd2, hd3, hd4, ?_⟩
    rw [e4, e3, e2, e1]
    field_simp
  · apply key
    unfold Fl.deg2Rad Fl.rad2Deg
    rw [fl_180 hp hfl, ← hqd]
    obtain ⟨d1, hd1, e1⟩ := factor hr (x / 180)
    obtain ⟨d2, hd2, e2⟩ := factor hr (fl (x / 180) * q)
    obtain ⟨d3, hd3, e3⟩ := factor hr (fl (fl (x / 180) * q) / q)
    obtain ⟨d4, hd4, e4⟩ := factor hr (fl (fl (fl (x / 180) * q) / q) * 180)
    refine ⟨d1, d2, d3, d4, hd1, hd2, hd3, hd4, ?_⟩
    rw [e4, e3, e2, e1]
    field_simp

/-! ## Concrete cases -/

/-- `float` constants on a machine whose `long double` has 64 bits. -/
example : NearestFloat 24 Real.pi (Fl.constant (flAway 24) (flAway 64) Fl.piLit) ∧ NearestFloat 24 (Real.exp 1) (Fl.constant (flAway 24) (flAway 64) Fl.eLit) :=
  ⟨C154_pi (by norm_num) (flAway_roundsToNearest (by norm_num)) (flAway_roundsToNearest (by norm_num)) (by norm_num),
    C154_e (by norm_num) (flAway_roundsToNearest (by norm_num)) (flAway_roundsToNearest (by norm_num)) (by norm_num)⟩

/-- `double` where `long double` is the same. -/
example : NearestFloat 53 √2 (Fl.constant (flAway 53) (flAway 53) Fl.sqrt2Lit) :=
  C154_sqrt2 (by norm_num) (flAway_roundsToNearest (by norm_num)) (flAway_roundsToNearest (by norm_num)) (by norm_num)

/-- A right angle in `double`, to degrees: within `4e-14` of 90. -/
example : |Fl.rad2Deg (flAway 53) (flAway 64) (Real.pi / 2) - 90| ≤ 4e-14 := by
  have h := C154_rad2deg (p := 53) (P := 64) (by norm_num) (flAway_roundsToNearest (by norm_num)) (flAway_roundsToNearest (by norm_num)) (by norm_num) (Real.pi / 2)
  have e : Real.pi / 2 * 180 / Real.pi = 90 := by
    have := Real.pi_pos.ne'
    field_simp
    norm_num
  rw [e] at h
  refine h.trans ?_
  norm_num

end Mathter.Props
