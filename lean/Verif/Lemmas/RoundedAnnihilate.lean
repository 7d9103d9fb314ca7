import Verif.Lemmas.RoundedSVDTwo

/-!
# Lemmas about the elements that the rotations of the rounded singular value decompositions remove
-/

namespace Mathter.Fl
open Mathter Mathter.Props
variable {r n m : ℕ} {fl : ℝ → ℝ} {u w : ℝ}

/-! ## Relative errors -/

/-- `x` is `x0` up to `k` rounding errors relative to `x0`. -/
def Rel (u k x x0 : ℝ) : Prop := |x - x0| ≤ k * u * |x0|

theorem Rel.refl (hu : 0 ≤ u) {k : ℝ} (hk : 0 ≤ k) (x : ℝ) : Rel u k x x := by
  unfold Rel; rw [sub_self, abs_zero]; positivity

theorem Rel.mono {k l x x0 : ℝ} (hu : 0 ≤ u) (a : Rel u k x x0) (hk : k ≤ l) : Rel u l x x0 := by
  unfold Rel at *
  have := mul_le_mul_of_nonneg_right (mul_le_mul_of_nonneg_right hk hu) (abs_nonneg x0)
  linarith

theorem Rel.abs_le {k x x0 : ℝ} (a : Rel u k x x0) : |x| ≤ (1 + k * u) * |x0| := by
  unfold Rel at a
  have := abs_sub_abs_le_abs_sub x x0
  linarith

theorem Rel.le_abs {k x x0 : ℝ} (a : Rel u k x x0) : (1 - k * u) * |x0| ≤ |x| := by
  unfold Rel at a
  have := abs_sub_abs_le_abs_sub x0 x
  rw [abs_sub_comm] at this
  linarith

theorem Rel.trans {k l m x y z : ℝ} (hu : 0 ≤ u) (hu2 : u ≤ 1 / 1000) (hk : 0 ≤ k) (hl : 0 ≤ l) (a : Rel u k y z) (b : Rel u l x y)
    (hm : k + l + k * l / 1000 ≤ m) : Rel u m x z := by
  have h1 := a.abs_le
  unfold Rel at *
  have t := abs_add_le (x - y) (y - z)
  rw [sub_add_sub_cancel] at t
  have h2 := mul_le_mul_of_nonneg_left h1 (by positivity : 0 ≤ l * u)
  have h3 : (k * u + l * u * (1 + k * u)) ≤ m * u := by
    have : l * k * u * u ≤ l * k * u * (1 / 1000) := mul_le_mul_of_nonneg_left hu2 (by positivity)
    have := mul_le_mul_of_nonneg_right hm hu
    nlinarith
  have := mul_le_mul_of_nonneg_right h3 (abs_nonneg z)
  linarith

theorem rel_fl (h : Rounding fl u) (x : ℝ) : Rel u 1 (fl x) x := by
  unfold Rel; rw [one_mul]; exact h.err x

theorem Rel.round (h : Rounding fl u) (hu2 : u ≤ 1 / 1000) {k m x x0 : ℝ} (hk : 0 ≤ k) (a : Rel u k x x0) (hm : k + 1 + k / 1000 ≤ m) :
    Rel u m (fl x) x0 := a.trans h.u_nonneg hu2 hk zero_le_one (rel_fl h x) (by linarith)

theorem Rel.mul {k l m x x0 y y0 : ℝ} (hu : 0 ≤ u) (hu2 : u ≤ 1 / 1000) (hk : 0 ≤ k) (hl : 0 ≤ l) (a : Rel u k x x0) (b : Rel u l y y0)
    (hm : k + l + k * l / 1000 ≤ m) : Rel u m (x * y) (x0 * y0) := by
  have h1 : Rel u k (x * y0) (x0 * y0) := by
    unfold Rel at *
    rw [← sub_mul, abs_mul, abs_mul, ← mul_assoc]
    exact mul_le_mul_of_nonneg_right a (abs_nonneg _)
  have h2 : Rel u l (x * y) (x * y0) := by
    unfold Rel at *
    rw [← mul_sub, abs_mul, abs_mul]
    have := mul_le_mul_of_nonneg_left b (abs_nonneg x)
    linarith
  exact h1.trans hu hu2 hk hl h2 hm

theorem Rel.inv {k m y y0 : ℝ} (hu : 0 ≤ u) (hu2 : u ≤ 1 / 1000) (hk : 0 ≤ k) (hk2 : k < 1000) (b : Rel u k y y0) (hm : k ≤ m * (1 - k / 1000)) :
    Rel u m y⁻¹ y0⁻¹ := by
  have hku : k * u ≤ k / 1000 := by have := mul_le_mul_of_nonneg_left hu2 hk; linarith
  have hpos : 0 < 1 - k / 1000 := by linarith
  have hm0 : 0 ≤ m := by
    by_contra hn
    have := mul_neg_of_neg_of_pos (not_le.1 hn) hpos
    linarith
  have hle := b.le_abs
  unfold Rel at *
  by_cases h0 : y0 = 0
  · subst h0
    have : y = 0 := by simpa using b
    subst this; simp
  have hy0 : 0 < |y0| := abs_pos.2 h0
  have hy : 0 < |y| := lt_of_lt_of_le (mul_pos (by linarith) hy0) hle
  have hy' : y ≠ 0 := abs_pos.1 hy
  have e : y⁻¹ - y0⁻¹ = (y0 - y) * (y⁻¹ * y0⁻¹) := by field_simp
  rw [e, abs_mul, abs_mul, ← mul_assoc, abs_inv, abs_inv, abs_sub_comm]
  refine mul_le_mul_of_nonneg_right ?_ (by positivity)
  rw [← div_eq_mul_inv, div_le_iff₀ hy]
  have h1 : k * u * |y0| ≤ m * u * ((1 - k * u) * |y0|) := by
    have h2 : k * u ≤ m * u * (1 - k * u) := by
      have a1 := mul_le_mul_of_nonneg_right hm hu
      have a2 : m * (1 - k / 1000) ≤ m * (1 - k * u) := mul_le_mul_of_nonneg_left (by linarith) hm0
      have a3 := mul_le_mul_of_nonneg_right a2 hu
      linarith
    have := mul_le_mul_of_nonneg_right h2 hy0.le
    linarith
  have h2 := mul_le_mul_of_nonneg_left hle (by positivity : 0 ≤ m * u)
  linarith

theorem Rel.div {k l m x x0 y y0 : ℝ} (hu : 0 ≤ u) (hu2 : u ≤ 1 / 1000) (hk : 0 ≤ k) (hl : 0 ≤ l) (hl2 : l < 1000) (a : Rel u k x x0) (b : Rel u l y y0)
    (hm : k + l ≤ m * (1 - l / 1000)) : Rel u m (x / y) (x0 / y0) := by
  have hpos : 0 < 1 - l / 1000 := by linarith
  have hb := b.inv hu hu2 hl hl2 (m := l / (1 - l / 1000)) (by rw [div_mul_cancel₀ _ hpos.ne'])
  rw [div_eq_mul_inv, div_eq_mul_inv]
  refine a.mul hu hu2 hk (by positivity) hb ?_
  have e : k + l / (1 - l / 1000) + k * (l / (1 - l / 1000)) / 1000 = (k + l) / (1 - l / 1000) := by
    have : 1000 - l ≠ 0 := by linarith
    have := hpos.ne'
    field_simp
    ring
  rw [e, div_le_iff₀ hpos]
  exact hm

/-- Numbers of the same sign. -/
theorem Rel.add {k x x0 y y0 : ℝ} (a : Rel u k x x0) (b : Rel u k y y0) (hs : 0 ≤ x0 * y0) : Rel u k (x + y) (x0 + y0) := by
  unfold Rel at *
  have e : |x0 + y0| = |x0| + |y0| := by
    rw [abs_add_eq_add_abs_iff]
    rcases lt_trichotomy x0 0 with h | h | h
    · exact Or.inr ⟨h.le, by by_contra hn; exact absurd hs (not_le.2 (mul_neg_of_neg_of_pos h (not_le.1 hn)))⟩
    · rcases le_total 0 y0 with h' | h'
      · exact Or.inl ⟨h.ge, h'⟩
      · exact Or.inr ⟨h.le, h'⟩
    · exact Or.inl ⟨h.le, by by_contra hn; exact absurd hs (not_le.2 (mul_neg_of_pos_of_neg h (not_le.1 hn)))⟩
  have t := abs_add_le (x - x0) (y - y0)
  rw [e, show x + y - (x0 + y0) = (x - x0) + (y - y0) by ring]
  linarith

theorem Rel.neg {k x x0 : ℝ} (a : Rel u k x x0) : Rel u k (-x) (-x0) := by
  unfold Rel at *
  rwa [abs_neg, ← neg_add', abs_neg, ← sub_eq_add_neg]

theorem Rel.sqrt {k x x0 : ℝ} (hk : k * u ≤ 1) (hx : 0 ≤ x0) (a : Rel u k x x0) : Rel u k (Real.sqrt x) (Real.sqrt x0) := by
  unfold Rel at *
  rw [abs_of_nonneg hx] at a
  rw [abs_of_nonneg (Real.sqrt_nonneg _)]
  have hle := _root_.abs_le.1 a
  have hxn : 0 ≤ x := by nlinarith
  by_cases h0 : x0 = 0
  · subst h0
    have : x = 0 := by simpa using a
    subst this; simp
  have hp : 0 < Real.sqrt x0 := Real.sqrt_pos.2 (lt_of_le_of_ne hx (Ne.symm h0))
  have hq := Real.sqrt_nonneg x
  have e : (Real.sqrt x - Real.sqrt x0) * (Real.sqrt x + Real.sqrt x0) = x - x0 := by
    have := Real.mul_self_sqrt hx
    have := Real.mul_self_sqrt hxn
    ring_nf at *; linarith
  have h1 : |Real.sqrt x - Real.sqrt x0| * Real.sqrt x0 ≤ |x - x0| := by
    rw [← e, abs_mul, abs_of_nonneg (by linarith : 0 ≤ Real.sqrt x + Real.sqrt x0)]
    exact mul_le_mul_of_nonneg_left (by linarith) (abs_nonneg _)
  have h2 : |Real.sqrt x - Real.sqrt x0| * Real.sqrt x0 ≤ (k * u * Real.sqrt x0) * Real.sqrt x0 := by
    rw [mul_assoc, Real.mul_self_sqrt hx]
    exact h1.trans a
  exact le_of_mul_le_mul_right h2 hp

/-- The sign of a number is that of its approximation. -/
theorem Rel.sign {k x x0 : ℝ} (hk : k * u < 1) (a : Rel u k x x0) : (x < 0 ↔ x0 < 0) ∧ (x = 0 ↔ x0 = 0) := by
  unfold Rel at a
  rcases lt_trichotomy x0 0 with h | h | h
  · rw [abs_of_neg h] at a
    have := _root_.abs_le.1 a
    have hx : x < 0 := by nlinarith
    exact ⟨⟨fun _ => h, fun _ => hx⟩, ⟨fun e => absurd e hx.ne, fun e => absurd e h.ne⟩⟩
  · subst h
    have : x = 0 := by simpa using a
    subst this; simp
  · rw [abs_of_pos h] at a
    have := _root_.abs_le.1 a
    have hx : 0 < x := by nlinarith
    exact ⟨⟨fun e => absurd e (not_lt.2 hx.le), fun e => absurd e (not_lt.2 h.le)⟩, ⟨fun e => absurd e hx.ne', fun e => absurd e h.ne'⟩⟩

/-- `z + copysign(d, z)` is a sum of numbers of the same sign. -/
theorem Rel.copysign {k z z0 d d0 : ℝ} (hk : k * u < 1) (neg : Bool) (a : Rel u k z z0) (hd0 : 0 ≤ d0) (b : Rel u k d d0) :
    Rel u k (z + copysignR neg d z) (z0 + copysignR neg d0 z0) := by
  obtain ⟨s1, s2⟩ := a.sign hk
  have hd : 0 ≤ d := by
    have := (b.sign hk).1
    by_contra hn
    exact absurd (this.1 (not_le.1 hn)) (not_lt.2 hd0)
  unfold copysignR
  rw [abs_of_nonneg hd, abs_of_nonneg hd0]
  by_cases hc : z0 < 0 ∨ z0 = 0 ∧ neg = true
  · rw [if_pos hc, if_pos (by rw [s1, s2]; exact hc)]
    have : z0 ≤ 0 := by rcases hc with hc | hc; exacts [hc.le, hc.1.le]
    exact a.add b.neg (by nlinarith)
  · rw [if_neg hc, if_neg (by rw [s1, s2]; exact hc)]
    have : 0 ≤ z0 := not_lt.1 fun hlt => hc (Or.inl hlt)
    exact a.add b (by positivity)

/-- `copysign` makes the root that is larger in magnitude. -/
theorem root_larger (neg : Bool) (z : ℝ) {d p : ℝ} (hd : 0 ≤ d) (hdd : d ^ 2 = z ^ 2 + (2 * p) ^ 2) :
    let L := 1 / 2 * (z + copysignR neg d z)
    L ^ 2 = z * L + p ^ 2 ∧ |z| ≤ |L| ∧ |p| ≤ |L| := by
  have hz : |z| ≤ d := by apply abs_le_of_sq_le_sq _ hd; nlinarith [sq_nonneg p]
  have hp : 2 * |p| ≤ d := by
    rw [← abs_two, ← abs_mul]
    apply abs_le_of_sq_le_sq _ hd
    nlinarith [sq_nonneg z]
  intro L
  have key : L ^ 2 = z * L + p ^ 2 ∧ 2 * |L| = |z| + d := by
    show (1 / 2 * (z + copysignR neg d z)) ^ 2 = z * (1 / 2 * (z + copysignR neg d z)) + p ^ 2 ∧ 2 * |1 / 2 * (z + copysignR neg d z)| = |z| + d
    unfold copysignR
    rw [abs_of_nonneg hd]
    split
    · rename_i hc
      have : z ≤ 0 := by rcases hc with hc | hc; exacts [hc.le, hc.1.le]
      refine ⟨by linear_combination (1 / 4) * hdd, ?_⟩
      rw [abs_of_nonpos this, abs_of_nonpos (by linarith)]; ring
    · rename_i hc
      have : 0 ≤ z := not_lt.1 fun hlt => hc (Or.inl hlt)
      refine ⟨by linear_combination (1 / 4) * hdd, ?_⟩
      rw [abs_of_nonneg this, abs_of_nonneg (by linarith)]; ring
  exact ⟨key.1, by linarith [key.2], by linarith [key.2, abs_nonneg z]⟩

theorem rel_hyp (hh : IsHypot w hyp) (hw : w ≤ 2 * u) (x y : ℝ) : Rel u 2 (hyp x y 0) (Real.sqrt (x ^ 2 + y ^ 2)) := by
  have := hh x y 0
  rw [show x ^ 2 + y ^ 2 + 0 ^ 2 = x ^ 2 + y ^ 2 by ring] at this
  unfold Rel
  rw [abs_of_nonneg (Real.sqrt_nonneg _)]
  exact this.trans (mul_le_mul_of_nonneg_right hw (Real.sqrt_nonneg _))

theorem rel_ps_nonneg (h : Rounding fl u) (hu2 : u ≤ 1 / 1000) {ps : ℝ → ℝ → ℝ → ℝ → ℝ} (hps : IsProdSum fl ps) {a b c d : ℝ} (h1 : 0 ≤ a * b)
    (h2 : 0 ≤ c * d) : Rel u (201 / 100) (ps a b c d) (a * b + c * d) := by
  have := ps_err h hps a b c d
  unfold Rel
  rw [abs_of_nonneg (add_nonneg h1 h2)]
  rw [← abs_mul, ← abs_mul, abs_of_nonneg h1, abs_of_nonneg h2] at this
  have hu := h.u_nonneg
  refine this.trans (mul_le_mul_of_nonneg_right ?_ (add_nonneg h1 h2))
  nlinarith

/-! ## The rotation of a symmetric matrix -/

/-- The element beside the diagonal that a rotation leaves. -/
def offDiag (a z c s : ℝ) : ℝ := (c ^ 2 - s ^ 2) * a + c * s * z

theorem minimizeRotation_cases (h : Rounding fl u) (h1 : fl 1 = 1) {c s : ℝ} (hc : fl c = c) (hs : fl s = s) (hcs : c ≠ 0 ∨ s ≠ 0) :
    ∃ t : ℝ, (t = 1 ∨ t = -1) ∧ (minimizeRotation fl c s = (t * c, t * s) ∨ minimizeRotation fl c s = (t * -s, t * c)) := by
  have key : ∀ a b : ℝ, fl a = a → fl b = b → a ≠ 0 → ∃ t : ℝ, (t = 1 ∨ t = -1) ∧ fl (fl (a / |a|) * a) = t * a ∧ fl (fl (a / |a|) * b) = t * b := by
    intro a b ha hb ha0
    rcases lt_or_gt_of_ne ha0 with hneg | hpos
    · refine ⟨-1, Or.inr rfl, ?_⟩
      rw [abs_of_neg hneg]
      have e : a / -a = -1 := by field_simp
      rw [e, h.odd, h1, neg_one_mul, neg_one_mul, h.odd, h.odd, ha, hb]
      exact ⟨rfl, rfl⟩
    · refine ⟨1, Or.inl rfl, ?_⟩
      rw [abs_of_pos hpos, div_self ha0, h1, one_mul, one_mul, ha, hb]
      exact ⟨rfl, rfl⟩
  unfold minimizeRotation
  by_cases hlt : |c| < |s|
  · simp only [if_pos hlt]
    have hs0 : -s ≠ 0 := by intro h0; rw [neg_eq_zero] at h0; rw [h0, abs_zero] at hlt; exact absurd hlt (not_lt.2 (abs_nonneg _))
    obtain ⟨t, ht, e1, e2⟩ := key (-s) c (by rw [h.odd, hs]) hc hs0
    rw [abs_neg] at e1 e2
    exact ⟨t, ht, Or.inr (by rw [e1, e2])⟩
  · simp only [if_neg hlt]
    have hle := not_lt.1 hlt
    have hc0 : c ≠ 0 := by
      rintro rfl
      rw [abs_zero, abs_nonpos_iff] at hle
      simp [hle] at hcs
    obtain ⟨t, ht, e1, e2⟩ := key c s hc hs hc0
    exact ⟨t, ht, Or.inl (by rw [e1, e2])⟩

theorem offDiag_minimize (h : Rounding fl u) (h1 : fl 1 = 1) (a z : ℝ) {c s : ℝ} (hc : fl c = c) (hs : fl s = s) (hcs : c ≠ 0 ∨ s ≠ 0) :
    |offDiag a z (minimizeRotation fl c s).1 (minimizeRotation fl c s).2| = |offDiag a z c s| := by
  obtain ⟨t, ht, e | e⟩ := minimizeRotation_cases h h1 hc hs hcs <;> rw [e] <;> unfold offDiag
  · have : t ^ 2 = 1 := by rcases ht with rfl | rfl <;> norm_num
    congr 1
    linear_combination ((c ^ 2 - s ^ 2) * a + c * s * z) * this
  · have : t ^ 2 = 1 := by rcases ht with rfl | rfl <;> norm_num
    rw [← abs_neg]
    congr 1
    linear_combination ((c ^ 2 - s ^ 2) * a + c * s * z) * this

theorem sq_le_of_nearUnit {η c s : ℝ} (h : NearUnit η c s) : c ^ 2 + s ^ 2 ≤ (1 + η) ^ 2 := by
  unfold NearUnit at h
  have h1 := (abs_le.1 h).2
  have h2 : Real.sqrt (c ^ 2 + s ^ 2) ≤ 1 + η := by linarith
  rw [← Real.sq_sqrt (by positivity : 0 ≤ c ^ 2 + s ^ 2)]
  exact pow_le_pow_left₀ (Real.sqrt_nonneg _) h2 2

theorem unitErr_small (hu : 0 ≤ u) (hu2 : u ≤ 1 / 1000) : unitErr u ≤ 1 / 250 := by
  unfold unitErr
  have : 0 < 1 - u := by linarith
  rw [tsub_le_iff_right, div_le_iff₀ (by positivity)]
  nlinarith

/-- The tangent with relative error `k` leaves an element of size `3 k u`. -/
theorem offDiag_root {a z L c s k : ℝ} (hu : 0 ≤ u) (hk0 : 0 ≤ k) (hk : k * u ≤ 1 / 10) (hL0 : L ≠ 0) (hL : L ^ 2 = z * L + a ^ 2) (hz : |z| ≤ |L|) (ha : |a| ≤ |L|) (hs : s ≠ 0)
    (hr : Rel u k (c / s) (a / L)) : |offDiag a z c s| ≤ s ^ 2 * (31 / 10 * (k * u) * |a|) := by
  set t0 := a / L with ht0
  set t := c / s with ht
  have e : offDiag a z c s = s ^ 2 * ((t ^ 2 - 1) * a + t * z) := by
    unfold offDiag; rw [ht]; field_simp
  have e0 : (t0 ^ 2 - 1) * a + t0 * z = 0 := by
    rw [ht0]; field_simp; linear_combination -a * hL
  have hLp : 0 < |L| := abs_pos.2 hL0
  have h1 : |t0| ≤ 1 := by rw [ht0, abs_div, div_le_one hLp]; exact ha
  have h2 : |t0 * z| ≤ |a| := by
    rw [ht0, abs_mul, abs_div, div_mul_eq_mul_div, div_le_iff₀ hLp]
    exact mul_le_mul_of_nonneg_left hz (abs_nonneg _)
  rw [e, abs_mul, abs_of_nonneg (sq_nonneg s)]
  refine mul_le_mul_of_nonneg_left ?_ (sq_nonneg s)
  have e1 : (t ^ 2 - 1) * a + t * z = (t - t0) * (t + t0) * a + (t - t0) * z := by linear_combination e0
  rw [e1]
  unfold Rel at hr
  have hz0 : |t0| * |z| ≤ |a| := by rw [← abs_mul]; exact h2
  have b1 : |(t - t0) * z| ≤ k * u * |a| := by
    rw [abs_mul]
    have := mul_le_mul_of_nonneg_right hr (abs_nonneg z)
    have := mul_le_mul_of_nonneg_left hz0 (by positivity : 0 ≤ k * u)
    linarith
  have b2 : |(t - t0) * (t + t0) * a| ≤ 21 / 10 * (k * u) * |a| := by
    rw [abs_mul]
    refine mul_le_mul_of_nonneg_right ?_ (abs_nonneg a)
    rw [abs_mul]
    have c1 : |t - t0| ≤ k * u := hr.trans (by have := mul_le_mul_of_nonneg_left h1 (by positivity : 0 ≤ k * u); linarith)
    have c2 : |t + t0| ≤ 21 / 10 := by
      have := abs_add_le (t - t0) (2 * t0)
      rw [show t - t0 + 2 * t0 = t + t0 by ring, abs_mul, abs_two] at this
      linarith
    have := mul_le_mul c1 c2 (abs_nonneg _) (by positivity)
    linarith
  refine (abs_add_le _ _).trans ?_
  linarith

theorem hermitian_off (h : Rounding fl u) (h1 : fl 1 = 1) (hu2 : u ≤ 1 / 1000) {ps : ℝ → ℝ → ℝ → ℝ → ℝ} (hps : IsProdSum fl ps) {hyp : ℝ → ℝ → ℝ → ℝ}
    (hh : IsHypot w hyp) (hw : w ≤ 2 * u) (neg : Bool) (a11 aoff a22 : ℝ) :
    let v0 := diagonalizeHermitian fl ps hyp neg a11 aoff a22
    let v := minimizeRotation fl v0.1 v0.2
    |offDiag aoff (a22 - a11) v.1 v.2| ≤ 30 * u * |aoff| := by
  have hu := h.u_nonneg
  have hz : fl 0 = 0 := fl_zero h
  have hη := unitErr_small hu hu2
  intro v0 v
  by_cases ha : aoff = 0
  · have e : v0 = (1, 0) := by show diagonalizeHermitian fl ps hyp neg a11 aoff a22 = _; unfold diagonalizeHermitian; rw [if_pos ha]
    show |offDiag aoff (a22 - a11) (minimizeRotation fl v0.1 v0.2).1 (minimizeRotation fl v0.1 v0.2).2| ≤ _
    rw [e, offDiag_minimize h h1 _ _ h1 hz (Or.inl one_ne_zero)]
    unfold offDiag; rw [ha]; simp
  have e : v0 = (fl (fl (aoff / hermitianRoot fl hyp neg a11 aoff a22) / fl (Real.sqrt (ps (fl (aoff / hermitianRoot fl hyp neg a11 aoff a22))
      (fl (aoff / hermitianRoot fl hyp neg a11 aoff a22)) 1 1))), fl (1 / fl (Real.sqrt (ps (fl (aoff / hermitianRoot fl hyp neg a11 aoff a22))
      (fl (aoff / hermitianRoot fl hyp neg a11 aoff a22)) 1 1)))) := by
    show diagonalizeHermitian fl ps hyp neg a11 aoff a22 = _
    unfold diagonalizeHermitian; rw [if_neg ha]
  show |offDiag aoff (a22 - a11) (minimizeRotation fl v0.1 v0.2).1 (minimizeRotation fl v0.1 v0.2).2| ≤ _
  have hroot : Rel u (604 / 100) (hermitianRoot fl hyp neg a11 aoff a22) (1 / 2 * ((a22 - a11) + copysignR neg (Real.sqrt ((a22 - a11) ^ 2 + (2 * aoff) ^ 2)) (a22 - a11))) := by
    unfold hermitianRoot
    simp only
    have r1 := rel_fl h (a22 - a11)
    have r2 := rel_fl h (2 * aoff)
    set z := fl (a22 - a11)
    set y := fl (2 * aoff)
    have r3 : Rel u (2001 / 1000) (z ^ 2) ((a22 - a11) ^ 2) := by rw [sq, sq]; exact r1.mul hu hu2 (by norm_num) (by norm_num) r1 (by norm_num)
    have r4 : Rel u (2001 / 1000) (y ^ 2) ((2 * aoff) ^ 2) := by rw [sq y, sq (2 * aoff)]; exact r2.mul hu hu2 (by norm_num) (by norm_num) r2 (by norm_num)
    have r5 := (r3.add r4 (by positivity)).sqrt (by linarith) (by positivity)
    have r6 := r5.trans hu hu2 (by norm_num) (by norm_num) (rel_hyp hh hw z y) (m := 401 / 100) (by norm_num)
    have r7 := (r1.mono hu (by norm_num : (1 : ℝ) ≤ 401 / 100)).copysign (by linarith) neg (Real.sqrt_nonneg _) r6
    have r8 := r7.round h hu2 (by norm_num) (m := 502 / 100) (by norm_num)
    have r9 := (Rel.refl hu le_rfl (1 / 2 : ℝ)).mul hu hu2 (by norm_num) (by norm_num) r8 (m := 502 / 100) (by norm_num)
    exact r9.round h hu2 (by norm_num) (by norm_num)
  have hd : Real.sqrt ((a22 - a11) ^ 2 + (2 * aoff) ^ 2) ^ 2 = (a22 - a11) ^ 2 + (2 * aoff) ^ 2 := Real.sq_sqrt (by positivity)
  obtain ⟨k1, k2, k3⟩ := root_larger neg (a22 - a11) (Real.sqrt_nonneg _) hd
  set L0 := 1 / 2 * ((a22 - a11) + copysignR neg (Real.sqrt ((a22 - a11) ^ 2 + (2 * aoff) ^ 2)) (a22 - a11))
  set L := hermitianRoot fl hyp neg a11 aoff a22
  clear_value L0 L
  have hL0 : L0 ≠ 0 := by
    intro h0
    rw [h0, abs_zero] at k3
    exact ha (abs_nonpos_iff.1 k3)
  have r1 := (Rel.refl hu le_rfl aoff).div hu hu2 (by norm_num) (by norm_num) (by norm_num) hroot (m := 61 / 10) (by norm_num)
  have r2 := r1.round h hu2 (by norm_num) (m := 711 / 100) (by norm_num)
  set cv := fl (aoff / L)
  clear_value cv
  have hun := pair_unit h (by linarith) hps (Or.inr one_ne_zero : cv ≠ 0 ∨ (1 : ℝ) ≠ 0)
  rw [e]
  simp only at *
  rw [offDiag_minimize h h1 _ _ (h.idem _) (h.idem _) (ne_zero_of_nearUnit (by linarith) hun)]
  set sc := fl (Real.sqrt (ps cv cv 1 1)) with hsc
  have hsc0 : sc ≠ 0 := by
    intro h0
    rw [h0] at hun
    simp only [div_zero, hz] at hun
    exact absurd (ne_zero_of_nearUnit (by linarith) hun) (by simp)
  have r3 : Rel u (201 / 100) (fl (cv / sc) / fl (1 / sc)) (cv / sc / (1 / sc)) :=
    (rel_fl h _).div hu hu2 (by norm_num) (by norm_num) (by norm_num) (rel_fl h _) (by norm_num)
  rw [show cv / sc / (1 / sc) = cv by field_simp] at r3
  have r4 := r2.trans hu hu2 (by norm_num) (by norm_num) r3 (m := 92 / 10) (by norm_num)
  have hs0 : fl (1 / sc) ≠ 0 := by
    have := ((rel_fl h (1 / sc)).sign (by linarith)).2
    rw [Ne, this]
    exact one_div_ne_zero hsc0
  have hoff := offDiag_root hu (by norm_num) (by linarith) hL0 k1 k2 k3 hs0 r4
  refine hoff.trans ?_
  have hs2 : fl (1 / sc) ^ 2 ≤ 102 / 100 := by
    have := sq_le_of_nearUnit hun
    have hn := unitErr_nonneg h (by linarith : u < 1)
    nlinarith [sq_nonneg (fl (cv / sc))]
  have := mul_le_mul_of_nonneg_right hs2 (by positivity : 0 ≤ 31 / 10 * (92 / 10 * u) * |aoff|)
  nlinarith [mul_nonneg hu (abs_nonneg aoff)]

/-! ## The columns that the one-sided algorithm rotates -/

theorem ps_small (h : Rounding fl u) (hu2 : u ≤ 1 / 1000) {ps : ℝ → ℝ → ℝ → ℝ → ℝ} (hps : IsProdSum fl ps) (a b c d : ℝ) :
    |ps a b c d - (a * b + c * d)| ≤ 201 / 100 * u * (|a| * |b| + |c| * |d|) := by
  have hu := h.u_nonneg
  exact (ps_err h hps a b c d).trans (mul_le_mul_of_nonneg_right (by nlinarith) (by positivity))

theorem pd_small (h : Rounding fl u) (hu2 : u ≤ 1 / 1000) {pd : ℝ → ℝ → ℝ → ℝ → ℝ} (hpd : IsProdDiff fl pd) (a b c d : ℝ) :
    |pd a b c d - (a * b - c * d)| ≤ 201 / 100 * u * (|a| * |b| + |c| * |d|) := by
  have hu := h.u_nonneg
  have := (Near.pd h hpd (Near.exact (u := u) a) (Near.exact b) (Near.exact c) (Near.exact d)).err
  exact this.trans (mul_le_mul_of_nonneg_right (by norm_num; nlinarith) (by positivity))

theorem pd_idem (h : Rounding fl u) {pd : ℝ → ℝ → ℝ → ℝ → ℝ} (hpd : IsProdDiff fl pd) (a b c d : ℝ) : fl (pd a b c d) = pd a b c d := by
  rcases hpd a b c d with e | e | e <;> rw [e, h.idem]

theorem prod_pair_err {g x' y' p q A B : ℝ} (hg : 0 ≤ g) (h1 : |x' - p| ≤ g * A) (h2 : |y' - q| ≤ g * B) (hp : |p| ≤ A) (hq : |q| ≤ B) :
    |x' * y' - p * q| ≤ (2 * g + g ^ 2) * (A * B) := by
  have hA := (abs_nonneg _).trans hp
  have hB := (abs_nonneg _).trans hq
  have e : x' * y' - p * q = (x' - p) * (y' - q) + (x' - p) * q + p * (y' - q) := by ring
  rw [e]
  refine (abs_add_le _ _).trans ?_
  have := abs_add_le ((x' - p) * (y' - q)) ((x' - p) * q)
  rw [abs_mul, abs_mul] at this
  rw [abs_mul p]
  have a1 := mul_le_mul h1 h2 (abs_nonneg _) (by positivity)
  have a2 := mul_le_mul h1 hq (abs_nonneg _) (by positivity)
  have a3 := mul_le_mul hp h2 (abs_nonneg _) hA
  nlinarith

theorem columns_off {g a a11 a22 c s : ℝ} (hu : 0 ≤ u) (hu2 : u ≤ 1 / 1000) (hg : 0 ≤ g) {x y x' y' : Fin r → ℝ} (hcs : c ^ 2 + s ^ 2 ≤ 102 / 100)
    (ha : |a - ∑ i, x i * y i| ≤ g * ∑ i, |x i| * |y i|) (h11 : |a11 - ∑ i, x i * x i| ≤ g * ∑ i, |x i| * |x i|)
    (h22 : |a22 - ∑ i, y i * y i| ≤ g * ∑ i, |y i| * |y i|) (hoff : |offDiag a (a22 - a11) c s| ≤ 30 * u * |a|)
    (hx : ∀ i, |x' i - (x i * c + y i * s)| ≤ 201 / 100 * u * (|x i| * |c| + |y i| * |s|))
    (hy : ∀ i, |y' i - (y i * c - x i * s)| ≤ 201 / 100 * u * (|y i| * |c| + |x i| * |s|)) :
    |∑ i, x' i * y' i| ≤ (20 * u + 11 / 10 * g) * (∑ i, x i ^ 2 + ∑ i, y i ^ 2) := by
  have hP : ∑ i, |x i| * |x i| = ∑ i, x i ^ 2 := Finset.sum_congr rfl fun i _ => by rw [abs_mul_abs_self, sq]
  have hQ : ∑ i, |y i| * |y i| = ∑ i, y i ^ 2 := Finset.sum_congr rfl fun i _ => by rw [abs_mul_abs_self, sq]
  have hG : 2 * ∑ i, |x i| * |y i| ≤ ∑ i, x i ^ 2 + ∑ i, y i ^ 2 := by
    rw [Finset.mul_sum, ← Finset.sum_add_distrib]
    refine Finset.sum_le_sum fun i _ => ?_
    rw [← sq_abs (x i), ← sq_abs (y i)]
    nlinarith [sq_nonneg (|x i| - |y i|)]
  have hGa : |∑ i, x i * y i| ≤ ∑ i, |x i| * |y i| := (Finset.abs_sum_le_sum_abs _ _).trans (le_of_eq (Finset.sum_congr rfl fun i _ => abs_mul _ _))
  have hR : |∑ i, x' i * y' i - ∑ i, (x i * c + y i * s) * (y i * c - x i * s)| ≤ 42 / 10 * u * (∑ i, x i ^ 2 + ∑ i, y i ^ 2) := by
    rw [← Finset.sum_sub_distrib, ← Finset.sum_add_distrib, Finset.mul_sum]
    refine (Finset.abs_sum_le_sum_abs _ _).trans (Finset.sum_le_sum fun i _ => ?_)
    have b1 : |x i * c + y i * s| ≤ |x i| * |c| + |y i| * |s| := (abs_add_le _ _).trans (by rw [abs_mul, abs_mul])
    have b2 : |y i * c - x i * s| ≤ |y i| * |c| + |x i| * |s| := (abs_sub _ _).trans (by rw [abs_mul, abs_mul])
    refine (prod_pair_err (by positivity) (hx i) (hy i) b1 b2).trans ?_
    have b3 : (|x i| * |c| + |y i| * |s|) * (|y i| * |c| + |x i| * |s|) ≤ (c ^ 2 + s ^ 2) * (x i ^ 2 + y i ^ 2) := by
      rw [← sq_abs (x i), ← sq_abs (y i), ← sq_abs c, ← sq_abs s]
      nlinarith [mul_nonneg (sq_nonneg (|x i| - |y i|)) (by positivity : 0 ≤ |c| ^ 2 + |s| ^ 2),
        mul_nonneg (sq_nonneg (|c| - |s|)) (by positivity : 0 ≤ |x i| ^ 2 + |y i| ^ 2)]
    have b4 := b3.trans (mul_le_mul_of_nonneg_right hcs (by positivity : 0 ≤ x i ^ 2 + y i ^ 2))
    have b5 : 2 * (201 / 100 * u) + (201 / 100 * u) ^ 2 ≤ 403 / 100 * u := by nlinarith
    have b6 := mul_le_mul b5 b4 (by positivity) (by positivity)
    refine b6.trans ?_
    nlinarith [mul_nonneg hu (by positivity : 0 ≤ x i ^ 2 + y i ^ 2)]
  have hE : ∑ i, (x i * c + y i * s) * (y i * c - x i * s) = offDiag (∑ i, x i * y i) (∑ i, y i * y i - ∑ i, x i * x i) c s := by
    unfold offDiag
    rw [← Finset.sum_sub_distrib, Finset.mul_sum, Finset.mul_sum, ← Finset.sum_add_distrib]
    exact Finset.sum_congr rfl fun i _ => by ring
  rw [hE] at hR
  rw [hP] at h11
  rw [hQ] at h22
  have hM : 0 ≤ ∑ i, x i ^ 2 + ∑ i, y i ^ 2 := add_nonneg (Finset.sum_nonneg fun i _ => sq_nonneg _) (Finset.sum_nonneg fun i _ => sq_nonneg _)
  generalize (∑ i, x' i * y' i) = Z at *
  generalize (∑ i, x i * y i) = G at *
  generalize (∑ i, x i * x i) = P at *
  generalize (∑ i, y i * y i) = Q at *
  generalize (∑ i, |x i| * |y i|) = W at *
  generalize (∑ i, x i ^ 2) = P2 at *
  generalize (∑ i, y i ^ 2) = Q2 at *
  clear hP hQ hE hx hy
  have hd : |offDiag G (Q - P) c s - offDiag a (a22 - a11) c s| ≤ 102 / 100 * g * (P2 + Q2) := by
    have e : offDiag G (Q - P) c s - offDiag a (a22 - a11) c s = (c ^ 2 - s ^ 2) * -(a - G) + c * s * ((a11 - P) - (a22 - Q)) := by unfold offDiag; ring
    rw [e]
    refine (abs_add_le _ _).trans ?_
    rw [abs_mul, abs_mul, abs_neg]
    have c1 : |c ^ 2 - s ^ 2| ≤ 102 / 100 := by rw [_root_.abs_le]; constructor <;> nlinarith [sq_nonneg c, sq_nonneg s]
    have c2 : |c * s| ≤ 51 / 100 := by rw [_root_.abs_le]; constructor <;> nlinarith [sq_nonneg (c + s), sq_nonneg (c - s)]
    have c3 : |a11 - P - (a22 - Q)| ≤ g * (P2 + Q2) := (abs_sub _ _).trans (by linarith)
    have c4 : |a - G| ≤ g * ((P2 + Q2) / 2) := ha.trans (mul_le_mul_of_nonneg_left (by linarith) hg)
    have d1 := mul_le_mul c1 c4 (abs_nonneg _) (by norm_num)
    have d2 := mul_le_mul c2 c3 (abs_nonneg _) (by norm_num)
    linarith
  have haM : |a| ≤ (1 + g) * ((P2 + Q2) / 2) := by
    have t := abs_add_le (a - G) G
    rw [sub_add_cancel] at t
    have := mul_le_mul_of_nonneg_left (by linarith : W ≤ (P2 + Q2) / 2) hg
    linarith
  have h30 := mul_le_mul_of_nonneg_left haM (by positivity : 0 ≤ 30 * u)
  have t1 := abs_add_le (Z - offDiag G (Q - P) c s) (offDiag G (Q - P) c s - offDiag a (a22 - a11) c s + offDiag a (a22 - a11) c s)
  have t2 := abs_add_le (offDiag G (Q - P) c s - offDiag a (a22 - a11) c s) (offDiag a (a22 - a11) c s)
  rw [show Z - offDiag G (Q - P) c s + (offDiag G (Q - P) c s - offDiag a (a22 - a11) c s + offDiag a (a22 - a11) c s) = Z by ring] at t1
  have k1 : u * (g * (P2 + Q2)) ≤ 1 / 1000 * (g * (P2 + Q2)) := mul_le_mul_of_nonneg_right hu2 (mul_nonneg hg hM)
  have k2 := mul_nonneg hu hM
  have k3 := mul_nonneg hg hM
  nlinarith

end Mathter.Fl
