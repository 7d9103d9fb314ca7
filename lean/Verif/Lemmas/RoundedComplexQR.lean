import Verif.Lemmas.QR
import Verif.Model.RoundedComplexQR
import Verif.Spec.NormC

/-! # Lemmas about the rounded Householder loop of complex matrices -/

namespace Mathter.Fl
variable {r n m : ℕ} {fl : ℝ → ℝ} {y : ℝ}

/-- Relative errors compose. -/
theorem rel_transC {a b : ℝ} {x w z : ℂ} (hb : 0 ≤ b) (h1 : ‖w - x‖ ≤ a * ‖x‖) (h2 : ‖z - w‖ ≤ b * ‖w‖) : ‖z - x‖ ≤ ((1 + b) * (1 + a) - 1) * ‖x‖ := by
  have t := norm_add_le (z - w) (w - x)
  rw [sub_add_sub_cancel] at t
  have t2 := norm_sub_norm_le w x
  have t3 : b * ‖w‖ ≤ b * ((1 + a) * ‖x‖) := mul_le_mul_of_nonneg_left (by linarith) hb
  nlinarith

/-- What the proofs use of complex arithmetic: every operation has a relative error of at most `y`. -/
structure ArithQ (y : ℝ) (fl : ℝ → ℝ) (mul : ℂ → ℂ → ℂ) (op : ℂ → ℂ → ℂ → ℂ) (ds dv : ℂ → ℝ → ℂ) (ab : ℂ → ℝ) (len : (Fin (r + 1) → ℂ) → ℝ) : Prop where
  y_nonneg : 0 ≤ y
  y_le : y ≤ 1 / 100
  rnd : ∀ z, ‖flC fl z - z‖ ≤ y * ‖z‖
  prod : ∀ a b, ‖mul a b - a * b‖ ≤ y * ‖a * b‖
  ab_zero : ab 0 = 0
  sign : ∀ z, z ≠ 0 → ab z ≠ 0 ∧ ‖ds z (ab z) - z / (‖z‖ : ℂ)‖ ≤ y
  quot : ∀ z (s : ℝ), s ≠ 0 → ‖dv z s - z / (s : ℂ)‖ ≤ y * ‖z / (s : ℂ)‖
  length : ∀ x, |len x - normC x| ≤ y * normC x
  row : ∀ a b : Fin (r + 1) → ℂ, ‖forUp (r + 1) 1 (fun q s => op (a q) (b q) s) (mul (a 0) (b 0)) - ∑ q, a q * b q‖ ≤ y * ∑ q, ‖a q‖ * ‖b q‖

theorem length_eq_normC {k : ℕ} (x : Fin k → ℂ) : Mathter.length x = normC x := by
  unfold Mathter.length normC norm2
  rw [lengthSquared_eq_sum]
  congr 1
  refine Finset.sum_congr rfl fun i _ => ?_
  dsimp only
  rw [← Complex.normSq_eq_norm_sq, Complex.normSq_apply, ← pow_two, ← pow_two]
  rfl

private theorem quot_arith {y L L' : ℝ} {w w' : ℂ} (h0 : 0 ≤ y) (h1 : y ≤ 1 / 100) (hL : 0 < L) (hw : ‖w' - w‖ ≤ 41 / 10 * y * ‖w‖) (hl : |L' - L| ≤ 26 / 5 * y * L) :
    0 < L' ∧ ‖w' / (L' : ℂ) - w / (L : ℂ)‖ ≤ 99 / 10 * y * ‖w / (L : ℂ)‖ := by
  have l1 : (1 - 26 / 5 * y) * L ≤ L' := by have := (abs_le.1 hl).1; linarith
  have l0 : 0 < L' := lt_of_lt_of_le (mul_pos (by linarith) hL) l1
  refine ⟨l0, ?_⟩
  have e : w' / (L' : ℂ) - w / (L : ℂ) = ((w' - w) * L + w * ((L : ℂ) - L')) / (L' * L) := by
    have : (L : ℂ) ≠ 0 := by exact_mod_cast hL.ne'
    have : (L' : ℂ) ≠ 0 := by exact_mod_cast l0.ne'
    field_simp; ring
  rw [e, norm_div, norm_div, norm_mul, Complex.norm_of_nonneg l0.le, Complex.norm_of_nonneg hL.le, div_le_iff₀ (mul_pos l0 hL)]
  have t := norm_add_le ((w' - w) * (L : ℂ)) (w * ((L : ℂ) - L'))
  rw [norm_mul, norm_mul, Complex.norm_of_nonneg hL.le] at t
  have e2 : ‖(L : ℂ) - L'‖ = |L' - L| := by rw [← Complex.ofReal_sub, Complex.norm_real, Real.norm_eq_abs, abs_sub_comm]
  rw [e2] at t
  have t1 : ‖w' - w‖ * L ≤ 41 / 10 * y * ‖w‖ * L := mul_le_mul_of_nonneg_right hw hL.le
  have t2 : ‖w‖ * |L' - L| ≤ ‖w‖ * (26 / 5 * y * L) := mul_le_mul_of_nonneg_left hl (norm_nonneg _)
  have e3 : 99 / 10 * y * (‖w‖ / L) * (L' * L) = 99 / 10 * y * ‖w‖ * L' := by field_simp
  rw [e3]
  have yw : 0 ≤ y * ‖w‖ := mul_nonneg h0 (norm_nonneg _)
  have t3 : 99 / 10 * (y * ‖w‖) * ((1 - 26 / 5 * y) * L) ≤ 99 / 10 * (y * ‖w‖) * L' := mul_le_mul_of_nonneg_left l1 (by linarith)
  have t4 : 93 / 10 * (y * ‖w‖) * L ≤ 99 / 10 * (y * ‖w‖) * ((1 - 26 / 5 * y) * L) := by
    have : 93 / 10 ≤ 99 / 10 * (1 - 26 / 5 * y) := by linarith
    have := mul_le_mul_of_nonneg_right this (mul_nonneg yw hL.le)
    linarith
  linarith

variable {mul : ℂ → ℂ → ℂ} {op : ℂ → ℂ → ℂ → ℂ} {ds dv : ℂ → ℝ → ℂ} {ab : ℂ → ℝ} {len : (Fin (r + 1) → ℂ) → ℝ}

private theorem pow4_le (h0 : 0 ≤ y) (h1 : y ≤ 1 / 100) : (1 + y) * (1 + ((1 + y) * (1 + ((1 + y) * (1 + y) - 1)) - 1)) - 1 ≤ 41 / 10 * y := by
  have a : y * y ≤ 1 / 100 * y := mul_le_mul_of_nonneg_right h1 h0
  have b : y * y * y ≤ 1 / 100 * y := by nlinarith
  have c : y * y * y * y ≤ 1 / 100 * (1 / 100 * y) := by nlinarith [mul_nonneg h0 h0]
  have b' : y * y * y ≤ 1 / 100 * (1 / 100 * y) := by nlinarith
  linarith

/-- The reflection vector: exact length, sign and quotient against the computed ones. -/
theorem householderOfC_err (h : ArithQ y fl mul op ds dv ab len) {lo hi : ℝ} (hlo : 0 < lo) (hh : lo ≤ hi) (k : Fin (r + 1)) (x : Fin (r + 1) → ℂ) (i : Fin (r + 1)) :
    ‖householderOfC fl ds dv ab len k x i - Mathter.householderOf lo hi k x i‖ ≤ 11 * y * ‖Mathter.householderOf lo hi k x i‖ := by
  have hy := h.y_nonneg
  have hy1 := h.y_le
  unfold householderOfC Mathter.householderOf
  simp only [Props.C14_length_precise lo hi hlo hh, length_eq_normC]
  -- the sign
  obtain ⟨sg', hsg'⟩ : ∃ s, s = (if ab (x k) ≠ 0 then -ds (x k) (ab (x k)) else 1) := ⟨_, rfl⟩
  obtain ⟨sg, hsg⟩ : ∃ s : ℂ, s = (if ‖x k‖ ≠ 0 then -(x k / (‖x k‖ : ℂ)) else 1) := ⟨_, rfl⟩
  have s1 : ‖sg' - sg‖ ≤ y ∧ ‖sg‖ = 1 ∧ ∀ t : ℝ, 0 ≤ t → ‖x k - sg * (t : ℂ)‖ = ‖x k‖ + t := by
    by_cases hx : x k = 0
    · rw [hx, h.ab_zero, if_neg (by simp)] at hsg'
      rw [hx, if_neg (by simp)] at hsg
      rw [hsg, hsg', hx]
      refine ⟨by simpa using hy, by simp, fun t ht => ?_⟩
      rw [one_mul, zero_sub, norm_neg, norm_zero, zero_add, Complex.norm_of_nonneg ht]
    · have hn := norm_pos_iff.2 hx
      have hnc : (‖x k‖ : ℂ) ≠ 0 := by exact_mod_cast hn.ne'
      obtain ⟨a0, a1⟩ := h.sign _ hx
      rw [if_pos a0] at hsg'
      rw [if_pos hn.ne'] at hsg
      rw [hsg, hsg']
      refine ⟨?_, ?_, fun t ht => ?_⟩
      · rw [← neg_add', norm_neg, ← sub_eq_add_neg]
        exact a1
      · rw [norm_neg, norm_div, Complex.norm_real, Real.norm_eq_abs, abs_norm, div_self hn.ne']
      · have e : x k - -(x k / (‖x k‖ : ℂ)) * (t : ℂ) = x k * ((1 + t / ‖x k‖ : ℝ) : ℂ) := by
          push_cast
          field_simp
          ring
        rw [e, norm_mul, Complex.norm_of_nonneg (by positivity)]
        field_simp
  change ‖(if len (fun i => if i = k then flC fl (x i - flC fl ((if ab (x k) ≠ 0 then -ds (x k) (ab (x k)) else 1) * (len x : ℂ))) else x i) ≠ 0 then
      fun i => dv (if i = k then flC fl (x i - flC fl ((if ab (x k) ≠ 0 then -ds (x k) (ab (x k)) else 1) * (len x : ℂ))) else x i)
        (len (fun i => if i = k then flC fl (x i - flC fl ((if ab (x k) ≠ 0 then -ds (x k) (ab (x k)) else 1) * (len x : ℂ))) else x i))
      else fun i => if i = k then 1 else if i = k then flC fl (x i - flC fl ((if ab (x k) ≠ 0 then -ds (x k) (ab (x k)) else 1) * (len x : ℂ))) else x i) i -
    (if normC (fun i => if i = k then x i - (if ‖x k‖ ≠ 0 then -(x k / (‖x k‖ : ℂ)) else 1) * (normC x : ℂ) else x i) ≠ 0 then
      divReal (fun i => if i = k then x i - (if ‖x k‖ ≠ 0 then -(x k / (‖x k‖ : ℂ)) else 1) * (normC x : ℂ) else x i)
        (normC (fun i => if i = k then x i - (if ‖x k‖ ≠ 0 then -(x k / (‖x k‖ : ℂ)) else 1) * (normC x : ℂ) else x i))
      else fun i => if i = k then 1 else if i = k then x i - (if ‖x k‖ ≠ 0 then -(x k / (‖x k‖ : ℂ)) else 1) * (normC x : ℂ) else x i) i‖ ≤
    11 * y * ‖(if normC (fun i => if i = k then x i - (if ‖x k‖ ≠ 0 then -(x k / (‖x k‖ : ℂ)) else 1) * (normC x : ℂ) else x i) ≠ 0 then
      divReal (fun i => if i = k then x i - (if ‖x k‖ ≠ 0 then -(x k / (‖x k‖ : ℂ)) else 1) * (normC x : ℂ) else x i)
        (normC (fun i => if i = k then x i - (if ‖x k‖ ≠ 0 then -(x k / (‖x k‖ : ℂ)) else 1) * (normC x : ℂ) else x i))
      else fun i => if i = k then 1 else if i = k then x i - (if ‖x k‖ ≠ 0 then -(x k / (‖x k‖ : ℂ)) else 1) * (normC x : ℂ) else x i) i‖
  rw [← hsg, ← hsg']
  clear hsg hsg'
  obtain ⟨s1, s2, s3⟩ := s1
  set w : Fin (r + 1) → ℂ := fun i => if i = k then x i - sg * (normC x : ℂ) else x i with hw
  set w' : Fin (r + 1) → ℂ := fun i => if i = k then flC fl (x i - flC fl (sg' * (len x : ℂ))) else x i with hw'
  have nx := normC_nonneg x
  -- the vector before normalisation
  have b1 : ∀ i, ‖w' i - w i‖ ≤ 41 / 10 * y * ‖w i‖ := by
    intro i
    simp only [hw, hw']
    split
    · rename_i hik
      rw [hik, s3 _ nx]
      have l1 : |len x| ≤ (1 + y) * normC x := by
        have := abs_sub_abs_le_abs_sub (len x) (normC x)
        rw [abs_of_nonneg nx] at this
        linarith [h.length x]
      have a1 : ‖sg' * (len x : ℂ) - sg * (normC x : ℂ)‖ ≤ ((1 + y) * (1 + y) - 1) * ‖sg * (normC x : ℂ)‖ := by
        have e : sg' * (len x : ℂ) - sg * (normC x : ℂ) = (sg' - sg) * (len x : ℂ) + sg * ((len x - normC x : ℝ) : ℂ) := by push_cast; ring
        rw [e, norm_mul sg, s2, Complex.norm_of_nonneg nx]
        refine (norm_add_le _ _).trans ?_
        rw [norm_mul, norm_mul, s2, Complex.norm_real, Complex.norm_real, Real.norm_eq_abs, Real.norm_eq_abs]
        have := mul_le_mul s1 l1 (abs_nonneg _) hy
        have := h.length x
        linarith
      have a2 := rel_transC hy a1 (h.rnd _)
      rw [norm_mul sg, s2, one_mul, Complex.norm_of_nonneg nx] at a2
      have a3 : ‖x k - flC fl (sg' * (len x : ℂ)) - (x k - sg * (normC x : ℂ))‖ ≤ ((1 + y) * (1 + ((1 + y) * (1 + y) - 1)) - 1) * ‖x k - sg * (normC x : ℂ)‖ := by
        rw [sub_sub_sub_cancel_left, norm_sub_rev, s3 _ nx]
        refine a2.trans (mul_le_mul_of_nonneg_left (by linarith [norm_nonneg (x k)]) ?_)
        nlinarith [mul_nonneg hy hy]
      have a4 := rel_transC hy a3 (h.rnd _)
      rw [s3 _ nx] at a4
      exact a4.trans (mul_le_mul_of_nonneg_right (pow4_le hy hy1) (add_nonneg (norm_nonneg _) nx))
    · rw [sub_self, norm_zero]
      positivity
  have b2 : |normC w' - normC w| ≤ 41 / 10 * y * normC w := (normC_sub_le _ _).trans (normC_le_mul (by linarith) b1)
  have b3 : |len w' - normC w| ≤ 26 / 5 * y * normC w := by
    have q := h.length w'
    have t := abs_add_le (len w' - normC w') (normC w' - normC w)
    rw [sub_add_sub_cancel] at t
    have t2 : y * normC w' ≤ y * ((1 + 41 / 10 * y) * normC w) := mul_le_mul_of_nonneg_left (by have := (abs_le.1 b2).2; linarith) hy
    have nw := normC_nonneg w
    have t3 : y * (41 / 10 * y * normC w) ≤ 1 / 100 * (41 / 10 * y * normC w) := mul_le_mul_of_nonneg_right hy1 (by positivity)
    have := mul_nonneg hy nw
    linarith
  by_cases hz : normC w = 0
  · have hz' : len w' = 0 := by
      rw [hz, mul_zero, sub_zero] at b3
      exact abs_eq_zero.1 (le_antisymm b3 (abs_nonneg _))
    have hww : w' = w := by
      funext i
      have := b1 i
      rw [normC_eq_zero hz i, norm_zero, mul_zero, sub_zero] at this
      rw [normC_eq_zero hz i]
      exact norm_le_zero_iff.1 this
    rw [if_neg (not_not.2 hz'), if_neg (not_not.2 hz)]
    change ‖(if i = k then 1 else w' i) - (if i = k then 1 else w i)‖ ≤ _
    rw [hww, sub_self, norm_zero]
    positivity
  · have hw0 : 0 < normC w := lt_of_le_of_ne (normC_nonneg w) (Ne.symm hz)
    obtain ⟨l0, hq⟩ := quot_arith hy hy1 hw0 (b1 i) b3
    rw [if_pos l0.ne', if_pos hz]
    change ‖dv (w' i) (len w') - w i / (normC w : ℂ)‖ ≤ 11 * y * ‖w i / (normC w : ℂ)‖
    refine (rel_transC hy hq (h.quot _ _ l0.ne')).trans (mul_le_mul_of_nonneg_right ?_ (norm_nonneg _))
    nlinarith

/-- Error of a product of approximate factors. -/
theorem mul_errC {a a' b b' : ℂ} {α β B : ℝ} (hα : 0 ≤ α) (ha : ‖a' - a‖ ≤ α * ‖a‖) (hb : ‖b' - b‖ ≤ β * B) (hB : ‖b‖ ≤ B) :
    ‖a' * b' - a * b‖ ≤ ((1 + α) * (1 + β) - 1) * (‖a‖ * B) := by
  have e : a' * b' - a * b = (a' - a) * b + a' * (b' - b) := by ring
  have ha' : ‖a'‖ ≤ (1 + α) * ‖a‖ := by have := norm_sub_norm_le a' a; linarith
  have t := norm_add_le ((a' - a) * b) (a' * (b' - b))
  rw [← e, norm_mul, norm_mul] at t
  have t1 : ‖a' - a‖ * ‖b‖ ≤ α * ‖a‖ * B := mul_le_mul ha hB (norm_nonneg _) (mul_nonneg hα (norm_nonneg _))
  have t2 : ‖a'‖ * ‖b' - b‖ ≤ (1 + α) * ‖a‖ * (β * B) := mul_le_mul ha' hb (norm_nonneg _) (mul_nonneg (by linarith) (norm_nonneg _))
  nlinarith

theorem reflectC_err (h : ArithQ y fl mul op ds dv ab len) {v v' : Fin (r + 1) → ℂ} (hv : normC v = 1) (hvv : ∀ i, ‖v' i - v i‖ ≤ 11 * y * ‖v i‖)
    (M : Matrix (Fin (r + 1)) (Fin m) ℂ) (j : Fin m) :
    normC (fun i => reflectC fl mul op v' M i j - Mathter.reflect v M i j) ≤ 60 * y * normC (fun i => M i j) := by
  have hy := h.y_nonneg
  have hy1 := h.y_le
  have hM := normC_nonneg (fun i => M i j)
  have yy : y * y ≤ 1 / 100 * y := mul_le_mul_of_nonneg_right hy1 hy
  have hsum : ∑ q, ‖v q‖ * ‖M q j‖ ≤ normC fun i => M i j := by
    have := normC_dot_le v (fun i => M i j); rwa [hv, one_mul] at this
  have hw1 : ‖∑ q, star (v q) * M q j‖ ≤ normC fun i => M i j := by
    refine (norm_sum_le _ _).trans (le_trans (le_of_eq ?_) hsum)
    simp only [norm_mul, norm_star]
  have hw2 : ‖rowTimesC mul op v' M j - ∑ q, star (v q) * M q j‖ ≤ 61 / 5 * y * normC fun i => M i j := by
    have k1 := h.row (fun q => star (v' q)) (fun q => M q j)
    change ‖rowTimesC mul op v' M j - _‖ ≤ _ at k1
    have k2 : ‖∑ q, star (v' q) * M q j - ∑ q, star (v q) * M q j‖ ≤ 11 * y * normC fun i => M i j := by
      rw [← Finset.sum_sub_distrib]
      refine (norm_sum_le _ _).trans ?_
      have : ∑ q, ‖star (v' q) * M q j - star (v q) * M q j‖ ≤ ∑ q, 11 * y * (‖v q‖ * ‖M q j‖) := Finset.sum_le_sum fun q _ => by
        rw [← sub_mul, norm_mul, ← mul_assoc, ← star_sub, norm_star]; exact mul_le_mul_of_nonneg_right (hvv q) (norm_nonneg _)
      rw [← Finset.mul_sum] at this
      exact this.trans (mul_le_mul_of_nonneg_left hsum (by linarith))
    have k3 : ∑ q, ‖star (v' q)‖ * ‖M q j‖ ≤ (1 + 11 * y) * normC fun i => M i j := by
      have : ∑ q, ‖star (v' q)‖ * ‖M q j‖ ≤ ∑ q, (1 + 11 * y) * (‖v q‖ * ‖M q j‖) := Finset.sum_le_sum fun q _ => by
        rw [norm_star, ← mul_assoc]
        refine mul_le_mul_of_nonneg_right ?_ (norm_nonneg _)
        have := norm_sub_norm_le (v' q) (v q)
        linarith [hvv q]
      rw [← Finset.mul_sum] at this
      exact this.trans (mul_le_mul_of_nonneg_left hsum (by linarith))
    have k4 := norm_add_le (rowTimesC mul op v' M j - ∑ q, star (v' q) * M q j) (∑ q, star (v' q) * M q j - ∑ q, star (v q) * M q j)
    rw [sub_add_sub_cancel] at k4
    have k5 := mul_le_mul_of_nonneg_left k3 hy
    have k6 := mul_le_mul_of_nonneg_right yy hM
    have k7 := mul_nonneg hy hM
    linarith
  have hr : ∀ i, reflectC fl mul op v' M i j = flC fl (M i j - mul (flC fl (2 * v' i)) (rowTimesC mul op v' M j)) := fun i => rfl
  have hr2 : ∀ i, Mathter.reflect v M i j = M i j - 2 * v i * ∑ q, star (v q) * M q j := fun i => rfl
  generalize rowTimesC mul op v' M j = w' at *
  -- elementwise
  have hel : ∀ i, ‖reflectC fl mul op v' M i j - Mathter.reflect v M i j‖ ≤ y * ‖M i j‖ + 58 * y * (normC fun i => M i j) * ‖v i‖ := by
    intro i
    rw [hr, hr2]
    set W := ∑ q, star (v q) * M q j
    set N := normC fun i => M i j
    have hb : ‖flC fl (2 * v' i) - 2 * v i‖ ≤ 61 / 5 * y * ‖2 * v i‖ := by
      have : ‖2 * v' i - 2 * v i‖ ≤ 11 * y * ‖2 * v i‖ := by
        rw [← mul_sub, norm_mul, norm_mul]
        have := mul_le_mul_of_nonneg_left (hvv i) (norm_nonneg (2 : ℂ))
        linarith
      refine (rel_transC hy this (h.rnd _)).trans (mul_le_mul_of_nonneg_right ?_ (norm_nonneg _))
      linarith
    have hP := mul_errC (by positivity) hb hw2 hw1
    have hT : 0 ≤ ‖2 * v i‖ * N := mul_nonneg (norm_nonneg _) hM
    have hP2 : ‖flC fl (2 * v' i) * w' - 2 * v i * W‖ ≤ 26 * y * (‖2 * v i‖ * N) := hP.trans (mul_le_mul_of_nonneg_right (by linarith) hT)
    have hvW : ‖2 * v i * W‖ ≤ ‖2 * v i‖ * N := by rw [norm_mul]; exact mul_le_mul_of_nonneg_left hw1 (norm_nonneg _)
    have t1 := h.prod (flC fl (2 * v' i)) w'
    generalize flC fl (2 * v' i) = b at *
    generalize mul b w' = P at *
    have t4 := norm_sub_norm_le (b * w') (2 * v i * W)
    have yT := mul_nonneg hy hT
    have yyT := mul_le_mul_of_nonneg_right yy hT
    have hP3 : ‖P - 2 * v i * W‖ ≤ 273 / 10 * y * (‖2 * v i‖ * N) := by
      have t2 := norm_add_le (P - b * w') (b * w' - 2 * v i * W)
      rw [sub_add_sub_cancel] at t2
      have t5 : y * ‖b * w'‖ ≤ y * ((1 + 26 * y) * (‖2 * v i‖ * N)) := mul_le_mul_of_nonneg_left (by linarith) hy
      linarith
    have t2 := norm_add_le (flC fl (M i j - P) - (M i j - P)) (2 * v i * W - P)
    rw [show flC fl (M i j - P) - (M i j - P) + (2 * v i * W - P) = flC fl (M i j - P) - (M i j - 2 * v i * W) by ring, norm_sub_rev (2 * v i * W)] at t2
    have t3 := norm_sub_le (M i j) P
    have t6 := norm_sub_norm_le P (2 * v i * W)
    have t7 := h.rnd (M i j - P)
    have t5 : y * ‖M i j - P‖ ≤ y * (‖M i j‖ + (1 + 273 / 10 * y) * (‖2 * v i‖ * N)) := mul_le_mul_of_nonneg_left (by linarith) hy
    have e2 : 58 * y * N * ‖v i‖ = 29 * y * (‖2 * v i‖ * N) := by
      rw [norm_mul, show ‖(2 : ℂ)‖ = 2 by simp]; ring
    rw [e2]
    linarith
  refine (normC_le_norm2 hel).trans ((norm2_add_le _ _).trans ?_)
  rw [norm2_smul y fun i => ‖M i j‖, norm2_smul _ fun i => ‖v i‖, abs_of_nonneg hy, abs_of_nonneg (mul_nonneg (by linarith) hM)]
  change y * normC (fun i => M i j) + 58 * y * normC (fun i => M i j) * normC v ≤ _
  rw [hv]
  have := mul_nonneg hy hM
  linarith

/-- One column of the state after one more reflection. -/
theorem step_colC {ε e N : ℝ} (hε : 0 ≤ ε) {H P : Matrix (Fin (r + 1)) (Fin (r + 1)) ℂ} (hH : H.conjTranspose * H = 1) (hP : P.conjTranspose * P = 1)
    {M M' M0 : Matrix (Fin (r + 1)) (Fin m) ℂ} {j : Fin m} (hM : normC (fun i => M i j - (P * M0) i j) ≤ (e - 1) * N)
    (hN : normC (fun i => M0 i j) ≤ N) (hM' : normC (fun i => M' i j - (H * M) i j) ≤ ε * normC (fun i => M i j)) :
    normC (fun i => M' i j - (H * P * M0) i j) ≤ (e * (1 + ε) - 1) * N ∧ normC (fun i => M' i j - (H * M) i j) ≤ ε * (e * N) := by
  have h1 : normC (fun i => M i j) ≤ e * N := by
    have t := normC_add_le (fun i => M i j - (P * M0) i j) (fun i => (P * M0) i j)
    simp only [sub_add_cancel] at t
    rw [normC_mul_col hP] at t
    linarith
  have h2 : normC (fun i => M' i j - (H * M) i j) ≤ ε * (e * N) := hM'.trans (mul_le_mul_of_nonneg_left h1 hε)
  refine ⟨?_, h2⟩
  have h3 : normC (fun i => (H * (M - P * M0)) i j) = normC (fun i => M i j - (P * M0) i j) := by
    rw [normC_mul_col hH]; rfl
  have t := normC_add_le (fun i => M' i j - (H * M) i j) (fun i => (H * (M - P * M0)) i j)
  have e1 : (fun i => M' i j - (H * M) i j + (H * (M - P * M0)) i j) = fun i => M' i j - (H * P * M0) i j := by
    funext i
    rw [Matrix.mul_sub, Matrix.sub_apply, Matrix.mul_assoc]; ring
  rw [e1, h3] at t
  linarith

/-- Invariant of the rounded QR loop: the state is what the exact reflections with the product `P` would give, up to small errors. -/
structure QRErrC (ε : ℝ) (A : Matrix (Fin (r + 1)) (Fin n) ℂ) (s : QRState ℂ (r + 1) n) (k : ℕ) (P : Matrix (Fin (r + 1)) (Fin (r + 1)) ℂ) : Prop where
  unit : P.conjTranspose * P = 1
  R : ∀ j, normC (fun i => s.R i j - (P * A) i j) ≤ ((1 + ε) ^ k - 1) * normC (fun i => A i j)
  QT : ∀ j, normC (fun i => s.QT i j - P i j) ≤ (1 + ε) ^ k - 1
  low : ∀ j : Fin n, j.val < k → normC (fun i => if j.val < i.val then s.R i j else 0) ≤ ((1 + ε) ^ k - 1) * normC (fun i => A i j)

theorem normC_one_col (j : Fin n) : normC (fun i => (1 : Matrix (Fin n) (Fin n) ℂ) i j) = 1 := by
  have : ((normC (fun i => (1 : Matrix (Fin n) (Fin n) ℂ) i j) ^ 2 : ℝ) : ℂ) = 1 := by
    rw [normC_sq]
    simp [Matrix.one_apply]
  have h2 : normC (fun i => (1 : Matrix (Fin n) (Fin n) ℂ) i j) ^ 2 = 1 := by exact_mod_cast this
  nlinarith [normC_nonneg (fun i => (1 : Matrix (Fin n) (Fin n) ℂ) i j)]

theorem qrC_err (h : ArithQ y fl mul op ds dv ab len) {lo hi : ℝ} (hlo : 0 < lo) (hh : lo ≤ hi) (hrn : n ≤ r + 1) (A : Matrix (Fin (r + 1)) (Fin n) ℂ) :
    ∃ P, QRErrC (60 * y) A (forUp n 0 (qrStepC fl mul op ds dv ab len hrn) ⟨A, 1⟩) n P := by
  have hy := h.y_nonneg
  have hε : 0 ≤ 60 * y := by linarith
  refine forUp_inv (n := n) (lo := 0) (body := qrStepC fl mul op ds dv ab len hrn) (fun k s => ∃ P, QRErrC (60 * y) A s k P) (Nat.zero_le _)
    ⟨1, ⟨by simp, fun j => ?_, fun j => ?_, fun j hj => absurd hj (by omega)⟩⟩ ?_
  · simp [normC_zero]
  · simp [normC_zero]
  rintro k s - ⟨P, hP, hR, hQ, hL⟩
  obtain ⟨hv, hz, hk⟩ := householder_spec lo hi hlo hh hrn s.R k
  have hvv : ∀ i, ‖householderC fl ds dv ab len hrn s.R k i - Mathter.householder lo hi hrn s.R k i‖ ≤ 11 * y * ‖Mathter.householder lo hi hrn s.R k i‖ :=
    fun i => householderOfC_err h hlo hh _ _ i
  unfold qrStepC
  dsimp only
  set v := Mathter.householder lo hi hrn s.R k with hvdef
  set v' := householderC fl ds dv ab len hrn s.R k with hvdef'
  clear_value v v'
  have hv1 : normC v = 1 := by
    have : ((normC v ^ 2 : ℝ) : ℂ) = 1 := by rw [normC_sq]; exact hv
    have h2 : normC v ^ 2 = 1 := by exact_mod_cast this
    nlinarith [normC_nonneg v]
  have hH : (Mathter.reflect v (1 : Matrix (Fin (r + 1)) (Fin (r + 1)) ℂ)).conjTranspose * Mathter.reflect v (1 : Matrix (Fin (r + 1)) (Fin (r + 1)) ℂ) = 1 :=
    reflect_unitary v hv
  have rR := fun j => reflectC_err h hv1 hvv s.R j
  have rQ := fun j => reflectC_err h hv1 hvv s.QT j
  have eR : Mathter.reflect v s.R = Mathter.reflect v (1 : Matrix (Fin (r + 1)) (Fin (r + 1)) ℂ) * s.R := reflect_eq_mul v s.R
  have eQ : Mathter.reflect v s.QT = Mathter.reflect v (1 : Matrix (Fin (r + 1)) (Fin (r + 1)) ℂ) * s.QT := reflect_eq_mul v s.QT
  rw [eR] at rR
  rw [eQ] at rQ
  have g1 : 1 ≤ (1 + 60 * y) ^ k.val := one_le_pow₀ (by linarith)
  generalize 60 * y = ε at *
  refine ⟨Mathter.reflect v (1 : Matrix (Fin (r + 1)) (Fin (r + 1)) ℂ) * P, ⟨?_, fun j => ?_, fun j => ?_, fun j hj => ?_⟩⟩
  · rw [Matrix.conjTranspose_mul, Matrix.mul_assoc, ← Matrix.mul_assoc (Mathter.reflect v (1 : Matrix (Fin (r + 1)) (Fin (r + 1)) ℂ)).conjTranspose, hH,
      Matrix.one_mul, hP]
  · rw [pow_succ]; exact (step_colC hε hH hP (hR j) le_rfl (rR j)).1
  · have := (step_colC (M0 := 1) (N := 1) hε hH hP (by rw [Matrix.mul_one, mul_one]; exact hQ j) (normC_one_col j).le (rQ j)).1
    rw [pow_succ]
    simp only [mul_one] at this
    exact this
  · have hF := (step_colC hε hH hP (hR j) le_rfl (rR j)).2
    rw [← eR] at hF
    -- the part below the diagonal
    have t := normC_add_le (fun i => if j.val < i.val then reflectC fl mul op v' s.R i j - Mathter.reflect v s.R i j else 0)
      (fun i => if j.val < i.val then Mathter.reflect v s.R i j else 0)
    have e1 : (fun i : Fin (r + 1) => (if j.val < i.val then reflectC fl mul op v' s.R i j - Mathter.reflect v s.R i j else 0) +
        (if j.val < i.val then Mathter.reflect v s.R i j else 0)) = fun i => if j.val < i.val then reflectC fl mul op v' s.R i j else 0 := by
      funext i; split
      · ring
      · ring
    rw [e1] at t
    have t1 : normC (fun i : Fin (r + 1) => if j.val < i.val then reflectC fl mul op v' s.R i j - Mathter.reflect v s.R i j else 0) ≤
        normC (fun i => reflectC fl mul op v' s.R i j - Mathter.reflect v s.R i j) := normC_mono fun i => by
      split
      · exact le_rfl
      · rw [norm_zero]; exact norm_nonneg _
    have hA := normC_nonneg fun i => A i j
    by_cases hjk : j = k
    · subst hjk
      have t2 : normC (fun i : Fin (r + 1) => if j.val < i.val then Mathter.reflect v s.R i j else 0) = 0 := by
        have : (fun i : Fin (r + 1) => if j.val < i.val then Mathter.reflect v s.R i j else 0) = fun _ => 0 := by
          funext i; split
          · rename_i hi; exact hk i hi
          · rfl
        rw [this, normC_zero]
      rw [pow_succ]
      nlinarith
    · have hjk' : j.val < k.val := by
        have : j.val ≠ k.val := fun e => hjk (Fin.ext e)
        omega
      have e2 : (fun i : Fin (r + 1) => if j.val < i.val then Mathter.reflect v s.R i j else 0) =
          fun i => (Mathter.reflect v (1 : Matrix (Fin (r + 1)) (Fin (r + 1)) ℂ) *
            (Matrix.of fun i (_ : Fin 1) => if j.val < i.val then s.R i j else 0)) i 0 := by
        funext i
        rw [← reflect_eq_mul]
        simp only [Mathter.reflect, Matrix.of_apply]
        have e3 : ∑ q, star (v q) * (if j.val < q.val then s.R q j else 0) = ∑ q, star (v q) * s.R q j := Finset.sum_congr rfl fun q _ => by
          split
          · rfl
          · rw [hz q (by omega), star_zero, zero_mul, zero_mul]
        rw [e3]
        split
        · rfl
        · rw [hz i (by omega)]; ring
      have t2 := normC_mul_col hH (Matrix.of fun (i : Fin (r + 1)) (_ : Fin 1) => if j.val < i.val then s.R i j else 0) 0
      rw [← e2] at t2
      have t3 := hL j hjk'
      simp only [Matrix.of_apply] at t2
      rw [pow_succ]
      nlinarith

end Mathter.Fl
