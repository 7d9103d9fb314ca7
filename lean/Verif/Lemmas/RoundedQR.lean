import Verif.Lemmas.QR
import Verif.Model.RoundedQR
import Verif.Props.RoundedLinear
import Verif.Spec.Norm

/-! # Lemmas about the rounded Householder loop -/

namespace Mathter.Fl
variable {r n m : ℕ} {fl : ℝ → ℝ} {u : ℝ}

theorem fl_zero (h : Rounding fl u) : fl 0 = 0 := by simpa using h.err 0

theorem one_le_growth (h : Rounding fl u) (k : ℕ) : 1 ≤ (1 + u) ^ k := one_le_pow₀ (by linarith [h.u_nonneg])

/-- Relative errors compose. -/
theorem rel_trans {a b x y z : ℝ} (_ : 0 ≤ a) (hb : 0 ≤ b) (h1 : |y - x| ≤ a * |x|) (h2 : |z - y| ≤ b * |y|) : |z - x| ≤ ((1 + b) * (1 + a) - 1) * |x| := by
  have t := abs_add_le (z - y) (y - x)
  rw [show z - y + (y - x) = z - x by ring] at t
  have t2 := abs_sub_abs_le_abs_sub y x
  have t3 : b * |y| ≤ b * ((1 + a) * |x|) := mul_le_mul_of_nonneg_left (by linarith) hb
  nlinarith

theorem lengthPrecise_fix (h : Rounding fl u) (c : Cfg) (p : Bool) (lo hi : ℝ) (conv : Bool) (tb : RTree (batchSize (r + 1) false)) (ts : RTree (r + 1 + 1))
    (x : Fin (r + 1) → ℝ) : fl (lengthPrecise c p fl lo hi conv tb ts x) = lengthPrecise c p fl lo hi conv tb ts x := h.idem _

/-- `LengthPrecise` has a small relative error. -/
theorem lengthPrecise_err (h : Rounding fl u) (c : Cfg) (p : Bool) {lo hi : ℝ} (hlo : 0 < lo) (hh : lo ≤ hi) (conv : Bool)
    (tb : RTree (batchSize (r + 1) false)) (ts : RTree (r + 1 + 1)) (htb : tb.Valid) (hts : ts.Valid) (x : Fin (r + 1) → ℝ) :
    |lengthPrecise c p fl lo hi conv tb ts x - norm2 x| ≤ ((1 + u) ^ (r + 4) - 1) * norm2 x := by
  have hu := h.u_nonneg
  unfold lengthPrecise
  have hs := stdClamp_pos (scaleElements x) lo hi hlo hh
  set s := stdClamp (scaleElements x) lo hi
  clear_value s
  dsimp only
  have e1 := Props.C76_length h conv tb ts htb hts (Vec.ofFn (fun i => fl (x i / s)) : Vec c ℝ (r + 1) p)
  simp only [Vec.get_ofFn] at e1
  change |_ - norm2 (fun i => fl (x i / s))| ≤ _ * norm2 (fun i => fl (x i / s)) at e1
  have e2 := h.err (length fl conv tb ts (Vec.ofFn (fun i => fl (x i / s)) : Vec c ℝ (r + 1) p) * s)
  set y : Fin (r + 1) → ℝ := fun i => fl (x i / s) with hy
  generalize length fl conv tb ts (Vec.ofFn y : Vec c ℝ (r + 1) p) = l at *
  -- the scaled vector
  have e3 : |norm2 y - norm2 x / s| ≤ u * (norm2 x / s) := by
    have a : norm2 (fun i => x i / s) = norm2 x / s := by
      have := norm2_smul s⁻¹ x
      rw [abs_of_pos (inv_pos.2 hs)] at this
      rw [div_eq_inv_mul, ← this]
      congr 1; funext i; rw [div_eq_inv_mul]
    rw [← a]
    exact (norm2_sub_le _ _).trans (norm2_le_mul hu fun i => h.err _)
  have g1 := one_le_growth h (r + 2)
  have hx : 0 ≤ norm2 x / s := div_nonneg (norm2_nonneg _) hs.le
  have e4 : |l * s - norm2 y * s| ≤ ((1 + u) ^ (r + 2) - 1) * |norm2 y * s| := by
    rw [← sub_mul, abs_mul, abs_of_pos hs, abs_mul, abs_of_pos hs, abs_of_nonneg (norm2_nonneg y), ← mul_assoc]
    exact mul_le_mul_of_nonneg_right e1 hs.le
  have e5 : |norm2 y * s - norm2 x| ≤ u * |norm2 x| := by
    have : norm2 x = norm2 x / s * s := by field_simp
    rw [this, ← sub_mul, abs_mul, abs_mul, abs_of_pos hs, abs_of_nonneg hx, ← mul_assoc]
    exact mul_le_mul_of_nonneg_right e3 hs.le
  have k := rel_trans (by nlinarith) hu (rel_trans hu (by linarith) e5 e4) e2
  rw [abs_of_nonneg (norm2_nonneg x)] at k
  refine k.trans (le_of_eq ?_)
  ring

/-- The reflection vector: exact length, sign and quotient against the computed ones. -/
theorem householderOf_err (h : Rounding fl u) (h1 : fl 1 = 1) {lo hi : ℝ} (hlo : 0 < lo) (hh : lo ≤ hi) {g : ℝ} (hg : 0 ≤ g)
    (hg2 : (1 + u) * (1 + g) ^ 2 < 2) (len : (Fin (r + 1) → ℝ) → ℝ) (hlen : ∀ x, |len x - norm2 x| ≤ g * norm2 x) (hfix : ∀ x, fl (len x) = len x)
    (k : Fin (r + 1)) (x : Fin (r + 1) → ℝ) (i : Fin (r + 1)) :
    |householderOf fl len k x i - Mathter.householderOf lo hi k x i| ≤
      ((1 + u) ^ 2 * (1 + g) / (2 - (1 + u) * (1 + g) ^ 2) - 1) * |Mathter.householderOf lo hi k x i| := by
  have hu := h.u_nonneg
  have hl : ∀ y : Fin (r + 1) → ℝ, Mathter.length y = norm2 y := fun y => by
    unfold Mathter.length norm2
    rw [lengthSquared_eq_sum]
    simp
  unfold householderOf Mathter.householderOf
  simp only [Props.C14_length_precise lo hi hlo hh, hl, RCLike.ofReal_real_eq_id, id, Real.norm_eq_abs]
  have hden : 0 < 2 - (1 + u) * (1 + g) ^ 2 := by linarith
  -- the sign is computed exactly
  have hsg : (if |x k| ≠ 0 then -fl (x k / |x k|) else 1) = (if |x k| ≠ 0 then -(x k / |x k|) else 1) := by
    split
    · rename_i hk
      rcases lt_trichotomy (x k) 0 with hn | hz | hp
      · rw [abs_of_neg hn, div_neg, div_self hn.ne, h.odd, h1]
      · rw [hz] at hk; simp at hk
      · rw [abs_of_pos hp, div_self hp.ne', h1]
    · rfl
  rw [hsg]
  have hs1 : ∀ y, |x k - (if |x k| ≠ 0 then -(x k / |x k|) else 1) * y| = |(|x k| + y)| ∧
      ((if |x k| ≠ 0 then -(x k / |x k|) else 1 : ℝ) = 1 ∨ (if |x k| ≠ 0 then -(x k / |x k|) else 1 : ℝ) = -1) := by
    intro y
    split
    · rename_i hk
      rcases lt_trichotomy (x k) 0 with hn | hz | hp
      · rw [abs_of_neg hn, div_neg, div_self hn.ne]
        refine ⟨?_, Or.inl (by norm_num)⟩
        rw [neg_neg, one_mul, ← abs_neg]; congr 1; ring
      · rw [hz] at hk; simp at hk
      · rw [abs_of_pos hp, div_self hp.ne']
        refine ⟨?_, Or.inr rfl⟩
        congr 1; ring
    · rename_i hk
      have : x k = 0 := by simpa using hk
      refine ⟨?_, Or.inl rfl⟩
      rw [this, abs_zero, zero_add, one_mul, zero_sub, abs_neg]
  set sg : ℝ := (if |x k| ≠ 0 then -(x k / |x k|) else 1) with hsgd
  clear_value sg
  have hal : fl (sg * len x) = sg * len x := by
    rcases (hs1 0).2 with e | e
    · rw [e, one_mul, hfix]
    · rw [e, neg_one_mul, h.odd, hfix]
  rw [hal]
  set w : Fin (r + 1) → ℝ := fun i => if i = k then x i - sg * norm2 x else x i with hw
  set w' : Fin (r + 1) → ℝ := fun i => if i = k then fl (x i - sg * len x) else x i with hw'
  change |(if len w' ≠ 0 then fun i => fl (w' i / len w') else fun i => if i = k then 1 else w' i) i -
      (if norm2 w ≠ 0 then divReal w (norm2 w) else fun i => if i = k then 1 else w i) i| ≤
    ((1 + u) ^ 2 * (1 + g) / (2 - (1 + u) * (1 + g) ^ 2) - 1) * |(if norm2 w ≠ 0 then divReal w (norm2 w) else fun i => if i = k then 1 else w i) i|
  -- the vector before normalisation
  have b1 : ∀ i, |w' i - w i| ≤ ((1 + u) * (1 + g) - 1) * |w i| := by
    intro i
    simp only [hw, hw']
    split
    · rename_i hik
      rw [hik]
      refine rel_trans hg hu ?_ (h.err _)
      rw [(hs1 _).1, abs_of_nonneg (add_nonneg (abs_nonneg _) (norm2_nonneg _))]
      have : x k - sg * len x - (x k - sg * norm2 x) = -(sg * (len x - norm2 x)) := by ring
      rw [this, abs_neg, abs_mul]
      have h3 : |sg| = 1 := by rcases (hs1 0).2 with e | e <;> simp [e]
      rw [h3, one_mul]
      exact (hlen x).trans (mul_le_mul_of_nonneg_left (by linarith [abs_nonneg (x k)]) hg)
    · rw [sub_self, abs_zero]
      exact mul_nonneg (by nlinarith) (abs_nonneg _)
  have b2 : |norm2 w' - norm2 w| ≤ ((1 + u) * (1 + g) - 1) * norm2 w := (norm2_sub_le _ _).trans (norm2_le_mul (by nlinarith) b1)
  have b3 : |len w' - norm2 w| ≤ ((1 + u) * (1 + g) ^ 2 - 1) * norm2 w := by
    have q1 : |norm2 w' - norm2 w| ≤ ((1 + u) * (1 + g) - 1) * |norm2 w| := by rwa [abs_of_nonneg (norm2_nonneg w)]
    have q2 : |len w' - norm2 w'| ≤ g * |norm2 w'| := by rw [abs_of_nonneg (norm2_nonneg w')]; exact hlen w'
    have := rel_trans (by nlinarith) hg q1 q2
    rw [abs_of_nonneg (norm2_nonneg w)] at this
    refine this.trans (le_of_eq ?_)
    ring
  clear_value w w'
  by_cases hz : norm2 w = 0
  · have hz' : len w' = 0 := by
      rw [hz, mul_zero, sub_zero] at b3
      exact abs_eq_zero.1 (le_antisymm b3 (abs_nonneg _))
    have hww : w' = w := by
      funext i
      have := b1 i
      rw [norm2_eq_zero hz i, abs_zero, mul_zero, sub_zero] at this
      rw [norm2_eq_zero hz i]
      exact abs_eq_zero.1 (le_antisymm this (abs_nonneg _))
    rw [if_neg (not_not.2 hz'), if_neg (not_not.2 hz), hww, sub_self, abs_zero]
    refine mul_nonneg ?_ (abs_nonneg _)
    rw [sub_nonneg, le_div_iff₀ hden]
    nlinarith [mul_nonneg hu hg, mul_nonneg hu hu, mul_nonneg (mul_nonneg hu hu) hg, mul_nonneg (mul_nonneg hu hg) hg, mul_nonneg hg hg]
  · have hw0 : 0 < norm2 w := lt_of_le_of_ne (norm2_nonneg w) (Ne.symm hz)
    obtain ⟨b4, b5⟩ := abs_le.1 b3
    have hN : (2 - (1 + u) * (1 + g) ^ 2) * norm2 w ≤ len w' := by nlinarith
    have hNpos : 0 < len w' := lt_of_lt_of_le (mul_pos hden hw0) hN
    rw [if_pos hNpos.ne', if_pos hz]
    simp only [divReal, RCLike.ofReal_real_eq_id, id]
    have hq : |w' i / len w' - w i / norm2 w| ≤ ((1 + u) * (1 + g) / (2 - (1 + u) * (1 + g) ^ 2) - 1) * |w i / norm2 w| := by
      have e : w' i / len w' - w i / norm2 w = ((w' i - w i) * norm2 w + w i * (norm2 w - len w')) / (len w' * norm2 w) := by
        field_simp; ring
      rw [e, abs_div, abs_div, abs_of_pos (mul_pos hNpos hw0), abs_of_pos hw0, div_le_iff₀ (mul_pos hNpos hw0)]
      have t1 := abs_add_le ((w' i - w i) * norm2 w) (w i * (norm2 w - len w'))
      rw [abs_mul, abs_mul, abs_of_pos hw0, abs_sub_comm (norm2 w)] at t1
      have t2 : |w' i - w i| * norm2 w ≤ ((1 + u) * (1 + g) - 1) * |w i| * norm2 w := mul_le_mul_of_nonneg_right (b1 i) hw0.le
      have t3 : |w i| * |len w' - norm2 w| ≤ |w i| * (((1 + u) * (1 + g) ^ 2 - 1) * norm2 w) := mul_le_mul_of_nonneg_left b3 (abs_nonneg _)
      have e2 : ((1 + u) * (1 + g) / (2 - (1 + u) * (1 + g) ^ 2) - 1) * (|w i| / norm2 w) * (len w' * norm2 w)
          = (((1 + u) * (1 + g) - 1) + ((1 + u) * (1 + g) ^ 2 - 1)) / (2 - (1 + u) * (1 + g) ^ 2) * |w i| * len w' := by
        field_simp; ring
      rw [e2]
      have c0 : 0 ≤ ((1 + u) * (1 + g) - 1) + ((1 + u) * (1 + g) ^ 2 - 1) := by nlinarith [mul_nonneg hu hg, mul_nonneg (mul_nonneg hu hg) hg, mul_nonneg hg hg]
      have t4 : (((1 + u) * (1 + g) - 1) + ((1 + u) * (1 + g) ^ 2 - 1)) / (2 - (1 + u) * (1 + g) ^ 2) * |w i| * ((2 - (1 + u) * (1 + g) ^ 2) * norm2 w) ≤
          (((1 + u) * (1 + g) - 1) + ((1 + u) * (1 + g) ^ 2 - 1)) / (2 - (1 + u) * (1 + g) ^ 2) * |w i| * len w' :=
        mul_le_mul_of_nonneg_left hN (mul_nonneg (div_nonneg c0 hden.le) (abs_nonneg _))
      have e3 : (((1 + u) * (1 + g) - 1) + ((1 + u) * (1 + g) ^ 2 - 1)) / (2 - (1 + u) * (1 + g) ^ 2) * |w i| * ((2 - (1 + u) * (1 + g) ^ 2) * norm2 w)
          = ((1 + u) * (1 + g) - 1) * |w i| * norm2 w + |w i| * (((1 + u) * (1 + g) ^ 2 - 1) * norm2 w) := by
        field_simp
      linarith
    have hq0 : 0 ≤ (1 + u) * (1 + g) / (2 - (1 + u) * (1 + g) ^ 2) - 1 := by
      rw [sub_nonneg, le_div_iff₀ hden]
      nlinarith [mul_nonneg hu hg, mul_nonneg (mul_nonneg hu hg) hg, mul_nonneg hg hg]
    refine (rel_trans hq0 hu hq (h.err _)).trans (le_of_eq ?_)
    congr 1
    field_simp
    ring

/-- Error of a product of approximate factors. -/
theorem mul_err {a a' b b' α β B : ℝ} (hα : 0 ≤ α) (ha : |a' - a| ≤ α * |a|) (hb : |b' - b| ≤ β * B) (hB : |b| ≤ B) :
    |a' * b' - a * b| ≤ ((1 + α) * (1 + β) - 1) * (|a| * B) := by
  have e : a' * b' - a * b = (a' - a) * b + a' * (b' - b) := by ring
  have ha' : |a'| ≤ (1 + α) * |a| := by have := abs_sub_abs_le_abs_sub a' a; linarith
  have t := abs_add_le ((a' - a) * b) (a' * (b' - b))
  rw [← e, abs_mul, abs_mul] at t
  have t1 : |a' - a| * |b| ≤ α * |a| * B := mul_le_mul ha hB (abs_nonneg _) (mul_nonneg hα (abs_nonneg _))
  have t2 : |a'| * |b' - b| ≤ (1 + α) * |a| * (β * B) :=
    mul_le_mul ha' hb (abs_nonneg _) (mul_nonneg (by linarith) (abs_nonneg _))
  nlinarith

/-- The error of applying a reflection, relative to the length of the column. -/
noncomputable def reflErr (u e : ℝ) (k : ℕ) : ℝ := u + 2 * ((1 + u) ^ (k + 3) * (1 + e) ^ 2 - 1)

theorem reflErr_nonneg (h : Rounding fl u) {e : ℝ} (he : 0 ≤ e) (k : ℕ) : 0 ≤ reflErr u e k := by
  have h1 := one_le_growth h (k + 3)
  have h2 : 1 ≤ (1 + e) ^ 2 := one_le_pow₀ (by linarith)
  have := h.u_nonneg
  unfold reflErr
  nlinarith

theorem reflect_err (h : Rounding fl u) {madd msub : ℝ → ℝ → ℝ → ℝ} (ha : IsMulAdd fl madd) (hs : IsMulSub fl msub) {e : ℝ} (he : 0 ≤ e)
    {v v' : Fin (r + 1) → ℝ} (hv : norm2 v = 1) (hvv : ∀ i, |v' i - v i| ≤ e * |v i|) (M : Matrix (Fin (r + 1)) (Fin m) ℝ) (j : Fin m) :
    norm2 (fun i => reflect fl madd msub v' M i j - Mathter.reflect v M i j) ≤ reflErr u e (r + 1) * norm2 (fun i => M i j) := by
  have hu := h.u_nonneg
  have hM := norm2_nonneg (fun i => M i j)
  -- the row `vmT * M`
  have hw1 : |∑ q, v q * M q j| ≤ norm2 fun i => M i j := by
    have := dot_abs_le v (fun i => M i j); rwa [hv, one_mul] at this
  have g1 := one_le_growth h (r + 1)
  have hw2 : |rowTimes fl madd v' M j - ∑ q, v q * M q j| ≤ ((1 + u) ^ (r + 1) * (1 + e) - 1) * norm2 fun i => M i j := by
    have k1 := Props.accum_err h ha v' (fun q => M q j)
    change |rowTimes fl madd v' M j - _| ≤ _ at k1
    have k2 : |∑ q, v' q * M q j - ∑ q, v q * M q j| ≤ e * norm2 fun i => M i j := by
      rw [← Finset.sum_sub_distrib]
      refine (Finset.abs_sum_le_sum_abs _ _).trans ?_
      have : ∑ q, |v' q * M q j - v q * M q j| ≤ ∑ q, e * (|v q| * |M q j|) := Finset.sum_le_sum fun q _ => by
        rw [← sub_mul, abs_mul, ← mul_assoc]; exact mul_le_mul_of_nonneg_right (hvv q) (abs_nonneg _)
      rw [← Finset.mul_sum] at this
      refine this.trans (mul_le_mul_of_nonneg_left ?_ he)
      have := abs_dot_le v (fun i => M i j); rwa [hv, one_mul] at this
    have k3 : ∑ q, |v' q * M q j| ≤ (1 + e) * norm2 fun i => M i j := by
      have : ∑ q, |v' q * M q j| ≤ ∑ q, (1 + e) * (|v q| * |M q j|) := Finset.sum_le_sum fun q _ => by
        rw [abs_mul, ← mul_assoc]
        refine mul_le_mul_of_nonneg_right ?_ (abs_nonneg _)
        have := abs_sub_abs_le_abs_sub (v' q) (v q)
        linarith [hvv q]
      rw [← Finset.mul_sum] at this
      refine this.trans (mul_le_mul_of_nonneg_left ?_ (by linarith))
      have := abs_dot_le v (fun i => M i j); rwa [hv, one_mul] at this
    have k4 := abs_add_le (rowTimes fl madd v' M j - ∑ q, v' q * M q j) (∑ q, v' q * M q j - ∑ q, v q * M q j)
    rw [sub_add_sub_cancel] at k4
    have k5 : ((1 + u) ^ (r + 1) - 1) * ∑ q, |v' q * M q j| ≤ ((1 + u) ^ (r + 1) - 1) * ((1 + e) * norm2 fun i => M i j) :=
      mul_le_mul_of_nonneg_left k3 (by linarith)
    nlinarith
  have hr : ∀ i, reflect fl madd msub v' M i j = msub (M i j) (fl (2 * v' i)) (rowTimes fl madd v' M j) := fun i => rfl
  have hr2 : ∀ i, Mathter.reflect v M i j = M i j - 2 * v i * ∑ q, v q * M q j := fun i => by simp [Mathter.reflect]
  generalize rowTimes fl madd v' M j = w' at *
  -- elementwise
  have hel : ∀ i, |reflect fl madd msub v' M i j - Mathter.reflect v M i j| ≤
      u * |M i j| + 2 * ((1 + u) ^ (r + 4) * (1 + e) ^ 2 - 1) * (norm2 fun i => M i j) * |v i| := by
    intro i
    rw [hr, hr2]
    set W := ∑ q, v q * M q j
    set N := norm2 fun i => M i j
    have hb : |fl (2 * v' i) - 2 * v i| ≤ ((1 + u) * (1 + e) - 1) * |2 * v i| := by
      refine rel_trans he hu ?_ (h.err _)
      rw [← mul_sub, abs_mul, abs_mul, ← mul_assoc, mul_comm e, mul_assoc]
      exact mul_le_mul_of_nonneg_left (hvv i) (abs_nonneg _)
    have hP := mul_err (by nlinarith) hb hw2 hw1
    have hk : 0 ≤ (1 + u) ^ (r + 2) * (1 + e) ^ 2 - 1 := by
      have h1 := one_le_growth h (r + 2)
      have h2 : 1 ≤ (1 + e) ^ 2 := one_le_pow₀ (by linarith)
      nlinarith
    have hT : 0 ≤ |2 * v i| * N := mul_nonneg (abs_nonneg _) hM
    have e1 : (1 + ((1 + u) * (1 + e) - 1)) * (1 + ((1 + u) ^ (r + 1) * (1 + e) - 1)) - 1 = (1 + u) ^ (r + 2) * (1 + e) ^ 2 - 1 := by ring
    rw [e1] at hP
    have hvW : |2 * v i * W| ≤ |2 * v i| * N := by rw [abs_mul]; exact mul_le_mul_of_nonneg_left hw1 (abs_nonneg _)
    have fin : ∀ P', |P' - 2 * v i * W| ≤ ((1 + u) ^ (r + 3) * (1 + e) ^ 2 - 1) * (|2 * v i| * N) →
        |fl (M i j - P') - (M i j - 2 * v i * W)| ≤ u * |M i j| + 2 * ((1 + u) ^ (r + 4) * (1 + e) ^ 2 - 1) * N * |v i| := by
      intro P' hP'
      have t1 := h.err (M i j - P')
      have t2 := abs_add_le (fl (M i j - P') - (M i j - P')) (2 * v i * W - P')
      rw [show fl (M i j - P') - (M i j - P') + (2 * v i * W - P') = fl (M i j - P') - (M i j - 2 * v i * W) by ring, abs_sub_comm (2 * v i * W)] at t2
      have t3 := abs_sub (M i j) P'
      have t4 := abs_sub_abs_le_abs_sub P' (2 * v i * W)
      have t5 : u * |M i j - P'| ≤ u * (|M i j| + (1 + u) ^ (r + 3) * (1 + e) ^ 2 * (|2 * v i| * N)) := mul_le_mul_of_nonneg_left (by linarith) hu
      have e2 : 2 * ((1 + u) ^ (r + 4) * (1 + e) ^ 2 - 1) * N * |v i| = ((1 + u) * ((1 + u) ^ (r + 3) * (1 + e) ^ 2) - 1) * (|2 * v i| * N) := by
        rw [abs_mul, abs_two]; ring
      rw [e2]
      linarith
    have e3 : (1 + u) ^ (r + 3) * (1 + e) ^ 2 = (1 + u) * ((1 + u) ^ (r + 2) * (1 + e) ^ 2) := by ring
    rcases hs (M i j) (fl (2 * v' i)) w' with hc | hc
    · rw [hc]
      refine fin _ ?_
      have t1 := h.err (fl (2 * v' i) * w')
      have t2 := abs_add_le (fl (fl (2 * v' i) * w') - fl (2 * v' i) * w') (fl (2 * v' i) * w' - 2 * v i * W)
      rw [sub_add_sub_cancel] at t2
      have t4 := abs_sub_abs_le_abs_sub (fl (2 * v' i) * w') (2 * v i * W)
      have t5 : u * |fl (2 * v' i) * w'| ≤ u * ((1 + u) ^ (r + 2) * (1 + e) ^ 2 * (|2 * v i| * N)) := mul_le_mul_of_nonneg_left (by linarith) hu
      rw [e3]
      linarith
    · rw [hc]
      refine fin _ (hP.trans (mul_le_mul_of_nonneg_right ?_ hT))
      rw [e3]
      nlinarith
  have h2 : (0 : ℝ) ≤ 2 * ((1 + u) ^ (r + 4) * (1 + e) ^ 2 - 1) := by
    have h1 := one_le_growth h (r + 4)
    have h2 : 1 ≤ (1 + e) ^ 2 := one_le_pow₀ (by linarith)
    nlinarith
  refine (norm2_le_of_abs hel).trans ((norm2_add_le _ _).trans ?_)
  rw [norm2_smul u fun i => |M i j|, norm2_abs, norm2_smul _ fun i => |v i|, norm2_abs, hv, mul_one, abs_of_nonneg hu, abs_of_nonneg (mul_nonneg h2 hM)]
  unfold reflErr
  exact le_of_eq (by ring)

theorem norm2_mul_col {a b d : ℕ} {P : Matrix (Fin a) (Fin b) ℝ} (h : P.transpose * P = 1) (X : Matrix (Fin b) (Fin d) ℝ) (j : Fin d) :
    norm2 (fun i => (P * X) i j) = norm2 (fun i => X i j) := by
  rw [← norm2_mulVec h fun i => X i j]
  rfl

/-- One column of the state after one more reflection. -/
theorem step_col {ε e N : ℝ} (hε : 0 ≤ ε) {H P : Matrix (Fin (r + 1)) (Fin (r + 1)) ℝ} (hH : H.transpose * H = 1) (hP : P.transpose * P = 1)
    {M M' M0 : Matrix (Fin (r + 1)) (Fin m) ℝ} {j : Fin m} (hM : norm2 (fun i => M i j - (P * M0) i j) ≤ (e - 1) * N)
    (hN : norm2 (fun i => M0 i j) ≤ N) (hM' : norm2 (fun i => M' i j - (H * M) i j) ≤ ε * norm2 (fun i => M i j)) :
    norm2 (fun i => M' i j - (H * P * M0) i j) ≤ (e * (1 + ε) - 1) * N ∧ norm2 (fun i => M' i j - (H * M) i j) ≤ ε * (e * N) := by
  have h1 : norm2 (fun i => M i j) ≤ e * N := by
    have t := norm2_add_le (fun i => M i j - (P * M0) i j) (fun i => (P * M0) i j)
    simp only [sub_add_cancel] at t
    rw [norm2_mul_col hP] at t
    linarith
  have h2 : norm2 (fun i => M' i j - (H * M) i j) ≤ ε * (e * N) := hM'.trans (mul_le_mul_of_nonneg_left h1 hε)
  refine ⟨?_, h2⟩
  have h3 : norm2 (fun i => (H * (M - P * M0)) i j) = norm2 (fun i => M i j - (P * M0) i j) := by
    rw [norm2_mul_col hH]; rfl
  have t := norm2_add_le (fun i => M' i j - (H * M) i j) (fun i => (H * (M - P * M0)) i j)
  have e1 : (fun i => M' i j - (H * M) i j + (H * (M - P * M0)) i j) = fun i => M' i j - (H * P * M0) i j := by
    funext i
    rw [Matrix.mul_sub, Matrix.sub_apply, Matrix.mul_assoc]; ring
  rw [e1, h3] at t
  linarith

/-- Invariant of the rounded QR loop: the state is what the exact reflections with the product `P` would give, up to small errors. -/
structure QRErr (ε : ℝ) (A : Matrix (Fin (r + 1)) (Fin n) ℝ) (s : QRState ℝ (r + 1) n) (k : ℕ) (P : Matrix (Fin (r + 1)) (Fin (r + 1)) ℝ) : Prop where
  unit : P.transpose * P = 1
  R : ∀ j, norm2 (fun i => s.R i j - (P * A) i j) ≤ ((1 + ε) ^ k - 1) * norm2 (fun i => A i j)
  QT : ∀ j, norm2 (fun i => s.QT i j - P i j) ≤ (1 + ε) ^ k - 1
  low : ∀ j : Fin n, j.val < k → norm2 (fun i => if j.val < i.val then s.R i j else 0) ≤ ((1 + ε) ^ k - 1) * norm2 (fun i => A i j)

theorem norm2_one_col (j : Fin n) : norm2 (fun i => (1 : Matrix (Fin n) (Fin n) ℝ) i j) = 1 := by
  unfold norm2
  simp [Matrix.one_apply, ite_pow]

theorem qr_err (h : Rounding fl u) (h1 : fl 1 = 1) {madd msub : ℝ → ℝ → ℝ → ℝ} (ha : IsMulAdd fl madd) (hs : IsMulSub fl msub) {lo hi : ℝ} (hlo : 0 < lo)
    (hh : lo ≤ hi) {g : ℝ} (hg : 0 ≤ g) (hg2 : (1 + u) * (1 + g) ^ 2 < 2) (len : (Fin (r + 1) → ℝ) → ℝ)
    (hlen : ∀ x, |len x - norm2 x| ≤ g * norm2 x) (hfix : ∀ x, fl (len x) = len x) (hrn : n ≤ r + 1) (A : Matrix (Fin (r + 1)) (Fin n) ℝ) :
    ∃ P, QRErr (reflErr u ((1 + u) ^ 2 * (1 + g) / (2 - (1 + u) * (1 + g) ^ 2) - 1) (r + 1)) A (forUp n 0 (qrStep fl madd msub len hrn) ⟨A, 1⟩) n P := by
  have hu := h.u_nonneg
  have he : 0 ≤ (1 + u) ^ 2 * (1 + g) / (2 - (1 + u) * (1 + g) ^ 2) - 1 := by
    rw [sub_nonneg, le_div_iff₀ (by linarith)]
    nlinarith [mul_nonneg hu hg, mul_nonneg hu hu, mul_nonneg (mul_nonneg hu hu) hg, mul_nonneg (mul_nonneg hu hg) hg, mul_nonneg hg hg]
  have herr := fun k x i => householderOf_err (r := r) h h1 hlo hh hg hg2 len hlen hfix k x i
  generalize (1 + u) ^ 2 * (1 + g) / (2 - (1 + u) * (1 + g) ^ 2) - 1 = e at *
  have hε := reflErr_nonneg h he (r + 1)
  refine forUp_inv (n := n) (lo := 0) (body := qrStep fl madd msub len hrn) (fun k s => ∃ P, QRErr (reflErr u e (r + 1)) A s k P) (Nat.zero_le _)
    ⟨1, ⟨by simp, fun j => ?_, fun j => ?_, fun j hj => absurd hj (by omega)⟩⟩ ?_
  · simp [norm2_zero]
  · simp [norm2_zero]
  rintro k s - ⟨P, hP, hR, hQ, hL⟩
  obtain ⟨hv, hz, hk⟩ := householder_spec lo hi hlo hh hrn s.R k
  have hvv : ∀ i, |householder fl len hrn s.R k i - Mathter.householder lo hi hrn s.R k i| ≤ e * |Mathter.householder lo hi hrn s.R k i| :=
    fun i => herr _ _ i
  unfold qrStep
  dsimp only
  set v := Mathter.householder lo hi hrn s.R k with hvdef
  set v' := householder fl len hrn s.R k with hvdef'
  clear_value v v'
  have hv1 : norm2 v = 1 := by
    unfold norm2
    have : ∑ i, v i ^ 2 = 1 := by simpa [sq] using hv
    rw [this, Real.sqrt_one]
  have hH : (Mathter.reflect v (1 : Matrix (Fin (r + 1)) (Fin (r + 1)) ℝ)).transpose * Mathter.reflect v (1 : Matrix (Fin (r + 1)) (Fin (r + 1)) ℝ) = 1 := by
    have := reflect_unitary v hv
    rwa [Matrix.conjTranspose_eq_transpose_of_trivial] at this
  have rR := fun j => reflect_err h ha hs he hv1 hvv s.R j
  have rQ := fun j => reflect_err h ha hs he hv1 hvv s.QT j
  have eR : Mathter.reflect v s.R = Mathter.reflect v (1 : Matrix (Fin (r + 1)) (Fin (r + 1)) ℝ) * s.R := reflect_eq_mul v s.R
  have eQ : Mathter.reflect v s.QT = Mathter.reflect v (1 : Matrix (Fin (r + 1)) (Fin (r + 1)) ℝ) * s.QT := reflect_eq_mul v s.QT
  rw [eR] at rR
  rw [eQ] at rQ
  have g1 : 1 ≤ (1 + reflErr u e (r + 1)) ^ k.val := one_le_pow₀ (by linarith)
  generalize reflErr u e (r + 1) = ε at *
  refine ⟨Mathter.reflect v (1 : Matrix (Fin (r + 1)) (Fin (r + 1)) ℝ) * P, ⟨?_, fun j => ?_, fun j => ?_, fun j hj => ?_⟩⟩
  · rw [Matrix.transpose_mul, Matrix.mul_assoc, ← Matrix.mul_assoc (Mathter.reflect v (1 : Matrix (Fin (r + 1)) (Fin (r + 1)) ℝ)).transpose, hH, Matrix.one_mul, hP]
  · rw [pow_succ]; exact (step_col hε hH hP (hR j) le_rfl (rR j)).1
  · have := (step_col (M0 := 1) (N := 1) hε hH hP (by rw [Matrix.mul_one, mul_one]; exact hQ j) (norm2_one_col j).le (rQ j)).1
    rw [pow_succ]
    simp only [mul_one] at this
    exact this
  · have hF := (step_col hε hH hP (hR j) le_rfl (rR j)).2
    rw [← eR] at hF
    -- the part below the diagonal
    have t := norm2_add_le (fun i => if j.val < i.val then reflect fl madd msub v' s.R i j - Mathter.reflect v s.R i j else 0)
      (fun i => if j.val < i.val then Mathter.reflect v s.R i j else 0)
    have e1 : (fun i : Fin (r + 1) => (if j.val < i.val then reflect fl madd msub v' s.R i j - Mathter.reflect v s.R i j else 0) +
        (if j.val < i.val then Mathter.reflect v s.R i j else 0)) = fun i => if j.val < i.val then reflect fl madd msub v' s.R i j else 0 := by
      funext i; split
      · ring
      · ring
    rw [e1] at t
    have t1 : norm2 (fun i : Fin (r + 1) => if j.val < i.val then reflect fl madd msub v' s.R i j - Mathter.reflect v s.R i j else 0) ≤
        norm2 (fun i => reflect fl madd msub v' s.R i j - Mathter.reflect v s.R i j) := norm2_mono fun i => by
      split
      · exact le_rfl
      · rw [abs_zero]; exact abs_nonneg _
    have hA := norm2_nonneg fun i => A i j
    by_cases hjk : j = k
    · subst hjk
      have t2 : norm2 (fun i : Fin (r + 1) => if j.val < i.val then Mathter.reflect v s.R i j else 0) = 0 := by
        have : (fun i : Fin (r + 1) => if j.val < i.val then Mathter.reflect v s.R i j else 0) = fun _ => 0 := by
          funext i; split
          · rename_i hi; exact hk i hi
          · rfl
        rw [this, norm2_zero]
      rw [pow_succ]
      nlinarith
    · have hjk' : j.val < k.val := by
        have : j.val ≠ k.val := fun e => hjk (Fin.ext e)
        omega
      have e2 : (fun i : Fin (r + 1) => if j.val < i.val then Mathter.reflect v s.R i j else 0) =
          fun i => (Mathter.reflect v (1 : Matrix (Fin (r + 1)) (Fin (r + 1)) ℝ) *
            (Matrix.of fun i (_ : Fin 1) => if j.val < i.val then s.R i j else 0)) i 0 := by
        funext i
        rw [← reflect_eq_mul]
        simp only [Mathter.reflect, Matrix.of_apply, star_trivial]
        have e3 : ∑ q, v q * (if j.val < q.val then s.R q j else 0) = ∑ q, v q * s.R q j := Finset.sum_congr rfl fun q _ => by
          split
          · rfl
          · rw [hz q (by omega)]; ring
        rw [e3]
        split
        · rfl
        · rw [hz i (by omega)]; ring
      have t2 := norm2_mul_col hH (Matrix.of fun (i : Fin (r + 1)) (_ : Fin 1) => if j.val < i.val then s.R i j else 0) 0
      rw [← e2] at t2
      have t3 := hL j hjk'
      simp only [Matrix.of_apply] at t2
      rw [pow_succ]
      nlinarith

end Mathter.Fl
