import Verif.Lemmas.RoundedLook
import Verif.Lemmas.RoundedArea
import Verif.Model.RoundedSegment
import Verif.Props.Intersection
import Verif.Props.RoundedGeometry

/-! # Lemmas about the rounded intersection of lines and segments in the plane -/

namespace Mathter.Fl
open Mathter
variable {n : ℕ} {fl : ℝ → ℝ} {u : ℝ}

/-- The rounded difference of two points. -/
theorem sub_ne_zero_of (h : Rounding fl u) (hu1 : u < 1) {a b : Fin n → ℝ} (hab : a ≠ b) : (fun i => fl (b i - a i)) ≠ 0 := by
  obtain ⟨i, hi⟩ := Function.ne_iff.1 hab
  intro e
  have e1 := h.err (b i - a i)
  rw [show fl (b i - a i) = 0 from congrFun e i, zero_sub, abs_neg] at e1
  have : 0 < |b i - a i| := abs_pos.2 (sub_ne_zero.2 (Ne.symm hi))
  nlinarith

/-- The direction of a segment. -/
theorem direction_err (h : Rounding fl u) {norm : (Fin n → ℝ) → Fin n → ℝ} {k : ℕ} (hn : IsNormalize u k norm) (hk : k ≤ n + 2) (hn1 : 1 ≤ n)
    (hg : (1 + u) ^ (n + 3) - 1 ≤ 1 / 1000) {a b : Fin n → ℝ} (hab : a ≠ b) :
    norm2 (fun i => norm (fun i => fl (b i - a i)) i - (b i - a i) / norm2 (fun i => b i - a i)) ≤ 2 * ((1 + u) ^ (n + 3) - 1) := by
  have hu := h.u_nonneg
  have g1 : (1 + u) ^ (n + 2) * (1 + u) = (1 + u) ^ (n + 3) := (pow_succ _ _).symm
  have g2 := h.one_le (n + 2)
  have g3 : u ≤ (1 + u) ^ (n + 3) - (1 + u) ^ (n + 2) := by rw [← g1]; nlinarith
  have hu1 : u < 1 := by linarith
  have hw := sub_ne_zero_of h hu1 hab
  have hw0 : (fun i => b i - a i) ≠ 0 := fun e => hab (funext fun i => (sub_eq_zero.1 (congrFun e i)).symm)
  have e1 := normalize_err h hn hk hn1 (by linarith) hw
  have e2 := norm2_dir_le hw hw0 (d := u) (norm2_le_mul hu fun i => h.err (b i - a i))
  have e : (fun i => norm (fun i => fl (b i - a i)) i - (b i - a i) / norm2 (fun i => b i - a i)) =
      fun i => (norm (fun i => fl (b i - a i)) i - fl (b i - a i) / norm2 (fun i => fl (b i - a i))) +
        (fl (b i - a i) / norm2 (fun i => fl (b i - a i)) - (b i - a i) / norm2 (fun i => b i - a i)) := by funext i; ring
  rw [e]
  refine (norm2_add_le _ _).trans ?_
  linarith

/-- The nearest point of a segment in terms of the coordinate along its main axis. -/
theorem clip_le {wa wb qa qb L e : ℝ} (hu : 0 ≤ u) (hu2 : u ≤ 1 / 1000) (hL : 0 < L) (hs : wa ^ 2 + wb ^ 2 = L ^ 2) (he : |wa * qb - wb * qa| ≤ e * L)
    (hm : |wb| * (1 - u) ≤ |wa| * (1 + u)) (h0 : 0 ≤ qa * wa) (h1 : |qa| * (1 - u) ≤ |wa| * (1 + u)) :
    L ≤ 1.5 * |wa| ∧ |qa| ≤ 1.01 * L ∧ ∃ s, 0 ≤ s ∧ s ≤ 1 ∧ |qa - s * wa| ≤ 3 * u * L ∧ |qb - s * wb| ≤ 1.5 * e + 3 * u * L := by
  have hb : |wb| ≤ 1.003 * |wa| := by
    have := abs_nonneg wa
    have := abs_nonneg wb
    nlinarith
  have hq : |qa| ≤ (1 + 3 * u) * |wa| := by
    have h2 := abs_nonneg wa
    have h3 : |qa| * (1 - u) ≤ ((1 + 3 * u) * |wa|) * (1 - u) := by
      refine h1.trans ?_
      have : 0 ≤ |wa| * (u * (1 - 3 * u)) := by
        apply mul_nonneg h2; apply mul_nonneg hu; linarith
      nlinarith
    exact le_of_mul_le_mul_right h3 (by linarith)
  have hLa : L ≤ 1.5 * |wa| := by
    have h2 := abs_nonneg wa
    refine le_of_sq_le_sq ?_ (by positivity)
    rw [← hs, mul_pow, sq_abs]
    have : wb ^ 2 ≤ (1.003 * |wa|) ^ 2 := by rw [← sq_abs wb]; exact pow_le_pow_left₀ (abs_nonneg _) hb 2
    rw [mul_pow, sq_abs] at this
    nlinarith [sq_nonneg wa]
  have haL : |wa| ≤ L := by
    refine le_of_sq_le_sq ?_ hL.le
    rw [sq_abs]; nlinarith [sq_nonneg wb]
  have hbL : |wb| ≤ L := by
    refine le_of_sq_le_sq ?_ hL.le
    rw [sq_abs]; nlinarith [sq_nonneg wa]
  have hwa : 0 < |wa| := by linarith
  have hwa0 : wa ≠ 0 := abs_pos.1 hwa
  refine ⟨hLa, by nlinarith, ?_⟩
  have hs0 : 0 ≤ qa / wa := by
    rw [show qa / wa = qa * wa / wa ^ 2 by field_simp]
    positivity
  have hs1 : qa / wa ≤ 1 + 3 * u := by
    rw [← abs_of_nonneg hs0, abs_div, div_le_iff₀ hwa]
    exact hq
  have hd0 : 0 ≤ qa / wa - min (qa / wa) 1 := sub_nonneg.2 (min_le_left _ _)
  have hd1 : qa / wa - min (qa / wa) 1 ≤ 3 * u := by
    rcases min_choice (qa / wa) 1 with e | e <;> rw [e]
    · rw [sub_self]; linarith
    · linarith
  refine ⟨min (qa / wa) 1, le_min hs0 zero_le_one, min_le_right _ _, ?_, ?_⟩
  · rw [show qa - min (qa / wa) 1 * wa = (qa / wa - min (qa / wa) 1) * wa by rw [sub_mul, div_mul_cancel₀ _ hwa0], abs_mul, abs_of_nonneg hd0]
    exact mul_le_mul hd1 haL (abs_nonneg _) (by linarith)
  · have k1 : |qb - qa / wa * wb| ≤ 1.5 * e := by
      rw [show qb - qa / wa * wb = (wa * qb - wb * qa) / wa by field_simp, abs_div, div_le_iff₀ hwa]
      have he0 : 0 ≤ e := by
        by_contra hc
        have := mul_neg_of_neg_of_pos (not_le.1 hc) hL
        linarith [abs_nonneg (wa * qb - wb * qa)]
      nlinarith
    have k2 : |(qa / wa - min (qa / wa) 1) * wb| ≤ 3 * u * L := by
      rw [abs_mul, abs_of_nonneg hd0]
      exact mul_le_mul hd1 hbL (abs_nonneg _) (by linarith)
    have := abs_add_le (qb - qa / wa * wb) ((qa / wa - min (qa / wa) 1) * wb)
    rw [show qb - qa / wa * wb + (qa / wa - min (qa / wa) 1) * wb = qb - min (qa / wa) 1 * wb by ring] at this
    linarith

/-- What the range check tells about the coordinate along the main axis. -/
theorem isWithin_coord (h : Rounding fl u) (hu1 : u < 1) {neg : Bool} {s : GSegment (n + 1)} {x : Fin (n + 1) → ℝ} (hs : s.point1 ≠ s.point2)
    (hx : isWithin fl neg s x) : ∃ a, (∀ i, |s.point2 i - s.point1 i| * (1 - u) ≤ |s.point2 a - s.point1 a| * (1 + u)) ∧
      0 ≤ (x a - s.point1 a) * (s.point2 a - s.point1 a) ∧ |x a - s.point1 a| * (1 - u) ≤ |s.point2 a - s.point1 a| * (1 + u) := by
  have hu := h.u_nonneg
  have hw := sub_ne_zero_of h hu1 hs
  unfold isWithin at hx
  dsimp only at hx
  have hmax := Props.C63_max_element fun i => |fl (s.point2 i - s.point1 i)|
  generalize maxElementPos (fun i => |fl (s.point2 i - s.point1 i)|) = a at *
  have lo : ∀ y, |y| * (1 - u) ≤ |fl y| := fun y => by
    have := h.err y
    have := abs_sub_abs_le_abs_sub y (fl y)
    rw [abs_sub_comm] at this
    linarith
  have hi : ∀ y, |fl y| ≤ |y| * (1 + u) := fun y => by
    have := h.err y
    have := abs_sub_abs_le_abs_sub (fl y) y
    linarith
  have sg : ∀ y, 0 ≤ y * fl y := fun y => by
    have e := h.err y
    have k : |y * (fl y - y)| ≤ u * y ^ 2 := by
      rw [abs_mul, ← sq_abs y]; nlinarith [abs_nonneg y]
    have := (abs_le.1 k).1
    nlinarith [sq_nonneg y]
  have hz : ∀ y, fl y = 0 → y = 0 := fun y e => by
    have := lo y
    rw [e, abs_zero] at this
    have h1 := abs_nonneg y
    have : |y| = 0 := by nlinarith
    exact abs_eq_zero.1 this
  have ha0 : fl (s.point2 a - s.point1 a) ≠ 0 := fun e => hw (funext fun i => by
    have := hmax i
    rw [e, abs_zero] at this
    exact abs_eq_zero.1 (le_antisymm this (abs_nonneg _)))
  refine ⟨a, fun i => (lo _).trans ((hmax i).trans (hi _)), ?_, ?_⟩
  · have sw := sg (s.point2 a - s.point1 a)
    have sx := sg (x a - s.point1 a)
    have h0 := hx.1
    generalize hw' : s.point2 a - s.point1 a = w at *
    generalize hx' : x a - s.point1 a = y at *
    unfold copysign1 at h0
    split at h0
    · rename_i hc
      have hn : fl w < 0 := by
        rcases hc with hc | hc
        · exact hc
        · exact absurd hc.1 ha0
      have w0 : w ≤ 0 := by by_contra hc; nlinarith
      have y0 : y ≤ 0 := by
        by_contra hc
        have : fl y ≤ 0 := by linarith
        have h1 : fl y = 0 := by nlinarith
        linarith [hz y h1]
      nlinarith
    · rename_i hc
      push Not at hc
      have hn : 0 < fl w := lt_of_le_of_ne hc.1 (Ne.symm ha0)
      have w0 : 0 ≤ w := by by_contra hc; nlinarith
      have y0 : 0 ≤ y := by
        by_contra hc
        have : 0 ≤ fl y := by linarith
        have h1 : fl y = 0 := by nlinarith
        linarith [hz y h1]
      exact mul_nonneg y0 w0
  · have e : |copysign1 neg (fl (s.point2 a - s.point1 a)) * fl (x a - s.point1 a)| = |fl (x a - s.point1 a)| := by
      unfold copysign1
      split <;> simp
    have := hx.2
    rw [← abs_of_nonneg hx.1, e] at this
    exact (lo _).trans (this.trans (hi _))

/-- The distance of a point from a segment that passes the range check, in terms of its distance from the line of the segment. -/
theorem segment_dist (h : Rounding fl u) (hu2 : u ≤ 1 / 1000) {neg : Bool} {s : GSegment 2} {x : Fin 2 → ℝ} {e : ℝ} (hs : s.point1 ≠ s.point2)
    (hx : isWithin fl neg s x)
    (he : |(s.point2 0 - s.point1 0) * (x 1 - s.point1 1) - (s.point2 1 - s.point1 1) * (x 0 - s.point1 0)| ≤ e * norm2 (fun i => s.point2 i - s.point1 i)) :
    ∃ t, 0 ≤ t ∧ t ≤ 1 ∧ norm2 (fun i => x i - s.interpol t i) ≤ 1.5 * e + 6 * u * norm2 (fun i => s.point2 i - s.point1 i) := by
  have hu := h.u_nonneg
  obtain ⟨a, ha, h0, h1⟩ := isWithin_coord h (by linarith) hs hx
  have hw0 : (fun i => s.point2 i - s.point1 i) ≠ 0 := fun e => hs (funext fun i => (sub_eq_zero.1 (congrFun e i)).symm)
  have hL := norm2_pos hw0
  have hsq := norm2_sq fun i => s.point2 i - s.point1 i
  rw [Fin.sum_univ_two] at hsq
  have le2 : ∀ v : Fin 2 → ℝ, norm2 v ≤ |v 0| + |v 1| := fun v => by
    refine le_of_sq_le_sq ?_ (by positivity)
    rw [norm2_sq, Fin.sum_univ_two, ← sq_abs (v 0), ← sq_abs (v 1)]
    nlinarith [abs_nonneg (v 0), abs_nonneg (v 1), mul_nonneg (abs_nonneg (v 0)) (abs_nonneg (v 1))]
  have ei : ∀ t i, x i - s.interpol t i = (x i - s.point1 i) - t * (s.point2 i - s.point1 i) := fun t i => by
    simp [GSegment.interpol]; ring
  rcases (show a = 0 ∨ a = 1 by fin_cases a <;> simp) with rfl | rfl
  · obtain ⟨-, -, t, t0, t1, k0, k1⟩ := clip_le hu hu2 hL hsq.symm he (ha 1) h0 h1
    refine ⟨t, t0, t1, (le2 _).trans ?_⟩
    simp only [ei]
    linarith
  · rw [abs_sub_comm] at he
    obtain ⟨-, -, t, t0, t1, k0, k1⟩ := clip_le hu hu2 hL (by rw [add_comm]; exact hsq.symm) he (ha 0) h0 h1
    refine ⟨t, t0, t1, (le2 _).trans ?_⟩
    simp only [ei]
    linarith

/-- The parameter of a point of a line that passes the range check of a segment of the line. -/
theorem param_le (h : Rounding fl u) {γ : ℝ} (hγ : γ ≤ 1 / 1000) (hu2 : u ≤ 1 / 1000) {neg : Bool} {s : GSegment 2} {x d : Fin 2 → ℝ} {t : ℝ}
    (hs : s.point1 ≠ s.point2) (hx : isWithin fl neg s x)
    (hd : norm2 (fun i => d i - (s.point2 i - s.point1 i) / norm2 (fun i => s.point2 i - s.point1 i)) ≤ 2 * γ)
    (ht : ∀ e, |x e - (s.point1 e + t * d e)| ≤ γ * (|s.point1 e| + |t| * |d e|)) :
    |t| ≤ 2 * (norm2 (fun i => s.point2 i - s.point1 i) + norm2 s.point1) := by
  have hu := h.u_nonneg
  obtain ⟨a, ha, h0, h1⟩ := isWithin_coord h (by linarith) hs hx
  have hw0 : (fun i => s.point2 i - s.point1 i) ≠ 0 := fun e => hs (funext fun i => (sub_eq_zero.1 (congrFun e i)).symm)
  have hL := norm2_pos hw0
  have hsq := norm2_sq fun i => s.point2 i - s.point1 i
  rw [Fin.sum_univ_two] at hsq
  set L := norm2 (fun i => s.point2 i - s.point1 i) with hLd
  have key : L ≤ 1.5 * |s.point2 a - s.point1 a| ∧ |x a - s.point1 a| ≤ 1.01 * L := by
    rcases (show a = 0 ∨ a = 1 by fin_cases a <;> simp) with rfl | rfl
    · obtain ⟨k0, k1, -⟩ := clip_le (e := |(s.point2 0 - s.point1 0) * (x 1 - s.point1 1) - (s.point2 1 - s.point1 1) * (x 0 - s.point1 0)| / L)
        hu hu2 hL hsq.symm (by rw [div_mul_cancel₀ _ hL.ne']) (ha 1) h0 h1
      exact ⟨k0, k1⟩
    · obtain ⟨k0, k1, -⟩ := clip_le (e := |(s.point2 1 - s.point1 1) * (x 0 - s.point1 0) - (s.point2 0 - s.point1 0) * (x 1 - s.point1 1)| / L)
        hu hu2 hL (by rw [add_comm]; exact hsq.symm) (by rw [div_mul_cancel₀ _ hL.ne']) (ha 0) h0 h1
      exact ⟨k0, k1⟩
  have hda := (abs_le_norm2 (fun i => d i - (s.point2 i - s.point1 i) / L) a).trans hd
  have hwL : 2 / 3 ≤ |(s.point2 a - s.point1 a) / L| := by
    rw [abs_div, abs_of_pos hL, le_div_iff₀ hL]; linarith [key.1]
  have hdl : 0.66 ≤ |d a| := by
    have := abs_sub_abs_le_abs_sub ((s.point2 a - s.point1 a) / L) (d a)
    rw [abs_sub_comm] at this
    linarith
  have hta := ht a
  have hb := abs_le_norm2 s.point1 a
  have hk : |t| * |d a| ≤ 1.01 * L + γ * (|s.point1 a| + |t| * |d a|) := by
    have := abs_add_le (x a - s.point1 a) (-(x a - (s.point1 a + t * d a)))
    rw [show x a - s.point1 a + -(x a - (s.point1 a + t * d a)) = t * d a by ring, abs_neg, abs_mul] at this
    linarith [key.2]
  have hb0 := norm2_nonneg s.point1
  have ht0 := abs_nonneg t
  have hk2 : 0.999 * (|t| * |d a|) ≤ 1.01 * L + 0.001 * norm2 s.point1 := by
    have : γ * (|s.point1 a| + |t| * |d a|) ≤ 0.001 * (norm2 s.point1 + |t| * |d a|) :=
      mul_le_mul (by linarith) (by linarith) (by positivity) (by norm_num)
    linarith
  have hk3 : |t| * 0.66 ≤ |t| * |d a| := mul_le_mul_of_nonneg_left hdl ht0
  linarith

/-- The products of two vectors in the plane. -/
theorem cross_le (v w : Fin 2 → ℝ) : |v 0 * w 1 - v 1 * w 0| ≤ norm2 v * norm2 w := by
  have := dot_abs_le v ![w 1, -w 0]
  rw [Fin.sum_univ_two] at this
  have e : norm2 ![w 1, -w 0] = norm2 w := by
    unfold norm2; congr 1; simp [Fin.sum_univ_two]; ring
  rw [e] at this
  refine le_trans (le_of_eq ?_) this
  simp; ring_nf

/-- The distance of the reported point from the line that it was computed on. -/
theorem rhs_dist {γ : ℝ} (hγ : γ ≤ 1 / 1000) {w b x d : Fin 2 → ℝ} {t : ℝ} (hw : w ≠ 0)
    (hd : norm2 (fun i => d i - w i / norm2 w) ≤ 2 * γ) (ht : ∀ e, |x e - (b e + t * d e)| ≤ γ * (|b e| + |t| * |d e|)) :
    norm2 d ≤ 1.002 ∧ 0.998 ≤ norm2 d ∧ norm2 (fun e => x e - (b e + t * d e)) ≤ γ * (norm2 b + |t| * norm2 d) ∧
      |w 0 * (x 1 - b 1) - w 1 * (x 0 - b 0)| ≤ γ * (norm2 b + 3.1 * |t|) * norm2 w := by
  have hL := norm2_pos hw
  have hγ0 : 0 ≤ γ := by have := (norm2_nonneg _).trans hd; linarith
  have n1 : norm2 (fun i => w i / norm2 w) = 1 := by
    rw [show (fun i => w i / norm2 w) = fun i => (norm2 w)⁻¹ * w i from funext fun i => by rw [div_eq_inv_mul], norm2_smul, abs_of_pos (inv_pos.2 hL),
      inv_mul_cancel₀ hL.ne']
  have nd := abs_le.1 ((norm2_sub_le d fun i => w i / norm2 w).trans hd)
  rw [n1] at nd
  have hr : norm2 (fun e => x e - (b e + t * d e)) ≤ γ * (norm2 b + |t| * norm2 d) := by
    have k1 : norm2 (fun e => γ * (|b e| + |t| * |d e|)) ≤ γ * (norm2 b + |t| * norm2 d) := by
      rw [norm2_smul, abs_of_nonneg hγ0]
      refine mul_le_mul_of_nonneg_left ((norm2_add_le _ _).trans (le_of_eq ?_)) hγ0
      rw [norm2_abs, norm2_smul, abs_abs, norm2_abs]
    exact (norm2_le_of_abs ht).trans k1
  refine ⟨by linarith, by linarith, hr, ?_⟩
  have e : w 0 * (x 1 - b 1) - w 1 * (x 0 - b 0) =
      t * (w 0 * (d 1 - w 1 / norm2 w) - w 1 * (d 0 - w 0 / norm2 w)) + (w 0 * (x 1 - (b 1 + t * d 1)) - w 1 * (x 0 - (b 0 + t * d 0))) := by
    field_simp; ring
  have c1 := cross_le w fun i => d i - w i / norm2 w
  have c2 := cross_le w fun e => x e - (b e + t * d e)
  rw [e]
  refine (abs_add_le _ _).trans ?_
  rw [abs_mul]
  have k1 : |t| * |w 0 * (d 1 - w 1 / norm2 w) - w 1 * (d 0 - w 0 / norm2 w)| ≤ |t| * (norm2 w * (2 * γ)) :=
    mul_le_mul_of_nonneg_left (c1.trans (mul_le_mul_of_nonneg_left hd hL.le)) (abs_nonneg t)
  have k2 := c2.trans (mul_le_mul_of_nonneg_left hr hL.le)
  have k3 : γ * (norm2 b + |t| * norm2 d) ≤ γ * (norm2 b + |t| * 1.002) :=
    mul_le_mul_of_nonneg_left (by linarith [mul_le_mul_of_nonneg_left (show norm2 d ≤ 1.002 by linarith) (abs_nonneg t)]) hγ0
  have k4 := mul_le_mul_of_nonneg_left k3 hL.le
  have k5 : 0 ≤ γ * |t| * norm2 w := by positivity
  nlinarith

/-- The distance of the reported point from the line that was converted to a plane. -/
theorem lhs_dist (h : Rounding fl u) {γ : ℝ} (hγ : γ = (1 + u) ^ 5 - 1) (hg : γ ≤ 1 / 1000) {madd : ℝ → ℝ → ℝ → ℝ} (hma : IsMulAdd fl madd)
    {dot : (Fin 2 → ℝ) → (Fin 2 → ℝ) → ℝ} (hdot : IsDot u 2 dot) {w b x d : Fin 2 → ℝ} (hw : w ≠ 0) (hd : norm2 (fun i => d i - w i / norm2 w) ≤ 2 * γ)
    {r : GLine 2} {v : Fin 2 → ℝ} (hv : v ≠ 0) (hr : norm2 (fun i => r.direction i - v i / norm2 v) ≤ 2 * γ)
    (hx : intersectLineLine fl madd dot ⟨d, b⟩ r = some x) :
    ∃ t, (∀ e, |x e - (r.base e + t * r.direction e)| ≤ γ * (|r.base e| + |t| * |r.direction e|)) ∧
      |w 0 * (x 1 - b 1) - w 1 * (x 0 - b 0)| ≤ γ * (8.4 * norm2 b + 4.2 * norm2 r.base + 4.2 * |t|) * norm2 w := by
  have hu := h.u_nonneg
  have g2 : (1 + u) ^ 2 - 1 ≤ γ := by
    rw [hγ]; exact sub_le_sub_right (pow_le_pow_right₀ (by linarith) (by norm_num)) 1
  have g0 : 0 ≤ (1 + u) ^ 2 - 1 := by linarith [h.one_le 2]
  have hγ0 := g0.trans g2
  have hL := norm2_pos hw
  obtain ⟨t, ht, hp⟩ := Props.C116_intersect h hma hdot (planeOfLine dot ⟨d, b⟩) r x hx
  have ht' : ∀ e, |x e - (r.base e + t * r.direction e)| ≤ γ * (|r.base e| + |t| * |r.direction e|) := fun e =>
    (ht e).trans (mul_le_mul_of_nonneg_right g2 (by positivity))
  refine ⟨t, ht', ?_⟩
  obtain ⟨r1, -, r2, -⟩ := rhs_dist hg hv hr ht'
  obtain ⟨d1, d2, -, -⟩ := rhs_dist (b := 0) (x := 0) (t := 0) hg hw hd (fun e => by simp)
  rw [← hγ] at hp
  clear ht hx
  set N := (planeOfLine dot ⟨d, b⟩).normal with hN
  set s := (planeOfLine dot ⟨d, b⟩).scalar with hs
  have eN : N = ![-d 1, d 0] := rfl
  have nN : norm2 N = norm2 d := by rw [eN]; unfold norm2; congr 1; simp [Fin.sum_univ_two]; ring
  have es : |s - ∑ i, N i * b i| ≤ γ * (norm2 d * norm2 b) := by
    have k1 := hdot N b
    have k2 : ∑ i, |N i * b i| ≤ norm2 d * norm2 b := by
      rw [← nN]; simp only [abs_mul]; exact abs_dot_le N b
    exact k1.trans (mul_le_mul g2 k2 (Finset.sum_nonneg fun _ _ => abs_nonneg _) hγ0)
  have hsq := norm2_sq N
  rw [nN] at hsq
  rw [← hsq] at hp
  have hsum : ∑ i, |N i| * (|N i| * |s| + 2 * |r.base i| + 2 * (|t| * |r.direction i|)) ≤
      norm2 d ^ 2 * |s| + 2 * (norm2 d * norm2 r.base) + 2 * (|t| * (norm2 d * norm2 r.direction)) := by
    have k1 := abs_dot_le N r.base
    have k2 := abs_dot_le N r.direction
    rw [nN] at k1 k2
    have k3 := mul_le_mul_of_nonneg_left k2 (abs_nonneg t)
    rw [hsq]
    rw [Fin.sum_univ_two] at k1 k2 k3 ⊢
    rw [Fin.sum_univ_two, ← sq_abs (N 0), ← sq_abs (N 1)]
    linarith
  have hdotb := dot_abs_le N b
  rw [nN] at hdotb
  clear_value N s
  generalize hB : norm2 b = B at *
  generalize hR : norm2 r.base = R at *
  have B0 : 0 ≤ B := by rw [← hB]; exact norm2_nonneg _
  have R0 : 0 ≤ R := by rw [← hR]; exact norm2_nonneg _
  have T0 := abs_nonneg t
  -- the size of the offset
  have s1 : |s| ≤ 1.01 * B := by
    have := abs_add_le (s - ∑ i, N i * b i) (∑ i, N i * b i)
    rw [sub_add_cancel] at this
    have k : norm2 d * B ≤ 1.002 * B := mul_le_mul_of_nonneg_right d1 B0
    nlinarith
  have s2 : |norm2 d ^ 2 - 1| ≤ 4.1 * γ := by
    have n1 : norm2 (fun i => w i / norm2 w) = 1 := by
      rw [show (fun i => w i / norm2 w) = fun i => (norm2 w)⁻¹ * w i from funext fun i => by rw [div_eq_inv_mul], norm2_smul, abs_of_pos (inv_pos.2 hL),
        inv_mul_cancel₀ hL.ne']
    have k := (norm2_sub_le d fun i => w i / norm2 w).trans hd
    rw [n1] at k
    rw [show norm2 d ^ 2 - 1 = (norm2 d - 1) * (norm2 d + 1) by ring, abs_mul, abs_of_nonneg (by linarith : 0 ≤ norm2 d + 1)]
    nlinarith [abs_nonneg (norm2 d - 1)]
  have q1 : |∑ i, N i * x i - ∑ i, N i * b i| ≤ γ * (6.3 * B + 2.1 * R + 2.1 * |t|) := by
    have e : ∑ i, N i * x i - ∑ i, N i * b i = (∑ i, N i * x i - s - (norm2 d ^ 2 - 1) * s) + (norm2 d ^ 2 - 1) * s + (s - ∑ i, N i * b i) := by ring
    rw [e]
    refine (abs_add_three _ _ _).trans ?_
    have k1 : |(norm2 d ^ 2 - 1) * s| ≤ 4.1 * γ * (1.01 * B) := by
      rw [abs_mul]; exact mul_le_mul s2 s1 (abs_nonneg _) (by linarith)
    have k2 : γ * (norm2 d * B) ≤ γ * (1.002 * B) := mul_le_mul_of_nonneg_left (mul_le_mul_of_nonneg_right d1 B0) hγ0
    have k3 : norm2 d ^ 2 * |s| + 2 * (norm2 d * R) + 2 * (|t| * (norm2 d * norm2 r.direction)) ≤ 1.02 * B + 2.1 * R + 2.1 * |t| := by
      have a1 : norm2 d ^ 2 * |s| ≤ 1.005 * (1.01 * B) := mul_le_mul (by nlinarith) s1 (abs_nonneg _) (by norm_num)
      have a2 : norm2 d * R ≤ 1.002 * R := mul_le_mul_of_nonneg_right d1 R0
      have a3 : norm2 d * norm2 r.direction ≤ 1.002 * 1.002 := mul_le_mul d1 r1 (norm2_nonneg _) (by norm_num)
      have a4 := mul_le_mul_of_nonneg_left a3 T0
      linarith
    have k4 := mul_le_mul_of_nonneg_left (hsum.trans k3) hγ0
    have k5 := hp.trans k4
    have k6 : 0 ≤ γ * B := mul_nonneg hγ0 B0
    linarith
  -- the size of the point
  have q2 : norm2 (fun i => x i - b i) ≤ B + 1.01 * R + 1.01 * |t| := by
    have e : (fun i => x i - b i) = fun i => (fun i => x i - (r.base i + t * r.direction i)) i + (fun i => (fun i => r.base i + t * r.direction i) i + -b i) i := by
      funext i; dsimp only; ring
    have k1 := norm2_add_le (fun i => x i - (r.base i + t * r.direction i)) (fun i => (fun i => r.base i + t * r.direction i) i + -b i)
    have k2 := norm2_add_le (fun i => r.base i + t * r.direction i) (fun i => -b i)
    have k3 := norm2_add_le r.base (fun i => t * r.direction i)
    rw [norm2_smul, hR] at k3
    rw [norm2_neg, hB] at k2
    have k4 : |t| * norm2 r.direction ≤ |t| * 1.002 := mul_le_mul_of_nonneg_left r1 T0
    have k5 : γ * (R + |t| * norm2 r.direction) ≤ 0.001 * (R + |t| * 1.002) :=
      mul_le_mul (by linarith) (by linarith) (by have := norm2_nonneg r.direction; positivity) (by norm_num)
    rw [e]
    linarith
  have c := cross_le (fun i => d i - w i / norm2 w) fun i => x i - b i
  have e : w 0 * (x 1 - b 1) - w 1 * (x 0 - b 0) = norm2 w * ((∑ i, N i * x i - ∑ i, N i * b i) -
      ((d 0 - w 0 / norm2 w) * (x 1 - b 1) - (d 1 - w 1 / norm2 w) * (x 0 - b 0))) := by
    rw [eN, Fin.sum_univ_two, Fin.sum_univ_two]
    simp only [Matrix.cons_val_zero, Matrix.cons_val_one]
    field_simp; ring
  rw [e, abs_mul, abs_of_pos hL, mul_comm]
  refine mul_le_mul_of_nonneg_right ((abs_sub _ _).trans ?_) hL.le
  have k1 : norm2 (fun i => d i - w i / norm2 w) * norm2 (fun i => x i - b i) ≤ 2 * γ * (B + 1.01 * R + 1.01 * |t|) :=
    mul_le_mul hd q2 (norm2_nonneg _) (by linarith)
  have k2 := mul_nonneg hγ0 B0
  have k3 := mul_nonneg hγ0 R0
  have k4 := mul_nonneg hγ0 T0
  linarith

/-- The foot of the perpendicular to a line in the plane. -/
theorem foot_le {w q : Fin 2 → ℝ} (hw : w ≠ 0) {e : ℝ} (he : |w 0 * q 1 - w 1 * q 0| ≤ e * norm2 w) : ∃ s : ℝ, norm2 (fun i => q i - s * w i) ≤ e := by
  have hL := norm2_pos hw
  have hsq := norm2_sq w
  rw [Fin.sum_univ_two] at hsq
  have h2 : norm2 w ^ 2 ≠ 0 := by positivity
  refine ⟨(w 0 * q 0 + w 1 * q 1) / norm2 w ^ 2, ?_⟩
  have e0 : (fun i => q i - (w 0 * q 0 + w 1 * q 1) / norm2 w ^ 2 * w i) = fun i => ((w 0 * q 1 - w 1 * q 0) / norm2 w ^ 2) * (![-w 1, w 0] : Fin 2 → ℝ) i := by
    funext i
    have hi : i = 0 ∨ i = 1 := by fin_cases i <;> simp
    rw [div_mul_eq_mul_div, div_mul_eq_mul_div, eq_div_iff h2, sub_mul, div_mul_cancel₀ _ h2, hsq]
    rcases hi with rfl | rfl <;> simp <;> ring
  rw [e0, norm2_smul, show norm2 ![-w 1, w 0] = norm2 w by unfold norm2; congr 1; simp [Fin.sum_univ_two]; ring, abs_div, abs_of_pos (show (0 : ℝ) < norm2 w ^ 2 by positivity),
    div_mul_eq_mul_div, div_le_iff₀ (by positivity)]
  nlinarith

/-- The range check accepts points whose coordinate along the main axis is well inside. -/
theorem isWithin_of (h : Rounding fl u) (hu1 : u < 1) {neg : Bool} {s : GSegment (n + 1)} {x : Fin (n + 1) → ℝ}
    (hx : ∀ a, (∀ i, |s.point2 i - s.point1 i| * (1 - u) ≤ |s.point2 a - s.point1 a| * (1 + u)) →
      0 ≤ (x a - s.point1 a) * (s.point2 a - s.point1 a) ∧ |x a - s.point1 a| * (1 + u) ≤ |s.point2 a - s.point1 a| * (1 - u)) : isWithin fl neg s x := by
  have hu := h.u_nonneg
  have hmax := Props.C63_max_element fun i => |fl (s.point2 i - s.point1 i)|
  have lo : ∀ y, |y| * (1 - u) ≤ |fl y| := fun y => by
    have := h.err y
    have := abs_sub_abs_le_abs_sub y (fl y)
    rw [abs_sub_comm] at this
    linarith
  have hi : ∀ y, |fl y| ≤ |y| * (1 + u) := fun y => by
    have := h.err y
    have := abs_sub_abs_le_abs_sub (fl y) y
    linarith
  have sg : ∀ y, 0 ≤ y * fl y := fun y => by
    have e := h.err y
    have k : |y * (fl y - y)| ≤ u * y ^ 2 := by
      rw [abs_mul, ← sq_abs y]; nlinarith [abs_nonneg y]
    have := (abs_le.1 k).1
    nlinarith [sq_nonneg y]
  have z0 : fl 0 = 0 := by simpa using h.err 0
  unfold isWithin
  dsimp only
  generalize maxElementPos (fun i => |fl (s.point2 i - s.point1 i)|) = a at *
  obtain ⟨h0, h1⟩ := hx a fun i => (lo _).trans ((hmax i).trans (hi _))
  have sw := sg (s.point2 a - s.point1 a)
  have sx := sg (x a - s.point1 a)
  have hle := (hi (x a - s.point1 a)).trans (h1.trans (lo (s.point2 a - s.point1 a)))
  generalize s.point2 a - s.point1 a = w at *
  generalize x a - s.point1 a = y at *
  have e : |copysign1 neg (fl w) * fl y| = |fl y| := by
    unfold copysign1
    split <;> simp
  have hpos : 0 ≤ copysign1 neg (fl w) * fl y := by
    by_cases hw0 : fl w = 0
    · rw [hw0, abs_zero] at hle
      rw [abs_eq_zero.1 (le_antisymm hle (abs_nonneg _)), mul_zero]
    unfold copysign1
    rcases lt_or_gt_of_ne hw0 with hn | hn
    · rw [if_pos (Or.inl hn)]
      have w0 : w ≠ 0 := fun e => hw0 (by rw [e, z0])
      have w1 : w < 0 := lt_of_le_of_ne (by by_contra hc; nlinarith) w0
      have y1 : y ≤ 0 := by by_contra hc; nlinarith
      have : fl y ≤ 0 := by
        rcases y1.lt_or_eq with hy | hy
        · by_contra hc; nlinarith
        · rw [hy, z0]
      linarith
    · rw [if_neg (by rintro (hc | hc); exacts [absurd hc (not_lt.2 hn.le), hw0 hc.1])]
      have w0 : w ≠ 0 := fun e => hw0 (by rw [e, z0])
      have w1 : 0 < w := lt_of_le_of_ne (by by_contra hc; nlinarith) (Ne.symm w0)
      have y1 : 0 ≤ y := by by_contra hc; nlinarith
      have : 0 ≤ fl y := by
        rcases y1.lt_or_eq with hy | hy
        · by_contra hc; nlinarith
        · rw [← hy, z0]
      linarith
  refine ⟨hpos, ?_⟩
  rw [← abs_of_nonneg hpos, e]
  exact hle

/-- A point near an inner point of a segment passes the range check. -/
theorem isWithin_near (h : Rounding fl u) (hu2 : u ≤ 1 / 1000) {neg : Bool} {s : GSegment 2} {x : Fin 2 → ℝ} (hs : s.point1 ≠ s.point2) {t ε : ℝ}
    (ht0 : 0 ≤ t) (ht1 : t ≤ 1) (hx : norm2 (fun i => x i - s.interpol t i) ≤ ε) (h0 : ε ≤ 0.45 * t * norm2 (fun i => s.point2 i - s.point1 i))
    (h1 : ε ≤ 0.45 * (1 - t) * norm2 (fun i => s.point2 i - s.point1 i)) (h2 : 10 * u ≤ 1 - t) : isWithin fl neg s x := by
  have hu := h.u_nonneg
  refine isWithin_of h (by linarith) fun a ha => ?_
  have hw0 : (fun i => s.point2 i - s.point1 i) ≠ 0 := fun e => hs (funext fun i => (sub_eq_zero.1 (congrFun e i)).symm)
  have hL := norm2_pos hw0
  have hsq := norm2_sq fun i => s.point2 i - s.point1 i
  rw [Fin.sum_univ_two] at hsq
  have key : norm2 (fun i => s.point2 i - s.point1 i) ≤ 1.5 * |s.point2 a - s.point1 a| := by
    have z : ∀ y : ℝ, |(0 : ℝ)| * (1 - u) ≤ |y| * (1 + u) := fun y => by rw [abs_zero, zero_mul]; positivity
    rcases (show a = 0 ∨ a = 1 by fin_cases a <;> simp) with rfl | rfl
    · exact (clip_le (qa := 0) (qb := 0) (e := 0) hu hu2 hL hsq.symm (by simp) (ha 1) (by simp) (z _)).1
    · exact (clip_le (qa := 0) (qb := 0) (e := 0) hu hu2 hL (by rw [add_comm]; exact hsq.symm) (by simp) (ha 0) (by simp) (z _)).1
  have hxa := (abs_le_norm2 (fun i => x i - s.interpol t i) a).trans hx
  have ei : x a - s.point1 a = t * (s.point2 a - s.point1 a) + (x a - s.interpol t a) := by
    simp [GSegment.interpol]; ring
  set w := s.point2 a - s.point1 a
  set L := norm2 (fun i => s.point2 i - s.point1 i)
  have k0 : |x a - s.interpol t a| ≤ 0.675 * t * |w| := by
    have := mul_le_mul_of_nonneg_left key (by linarith : 0 ≤ 0.45 * t)
    linarith
  have k1 : |x a - s.interpol t a| ≤ 0.675 * (1 - t) * |w| := by
    have := mul_le_mul_of_nonneg_left key (by linarith : 0 ≤ 0.45 * (1 - t))
    linarith
  rw [ei]
  generalize x a - s.interpol t a = e at *
  have hw := abs_nonneg w
  constructor
  · have : |e * w| ≤ t * w ^ 2 := by
      rw [abs_mul, ← sq_abs w]
      nlinarith [mul_nonneg ht0 (sq_nonneg |w|)]
    have := (abs_le.1 this).1
    nlinarith
  · have k2 : |t * w + e| ≤ t * |w| + 0.675 * (1 - t) * |w| := by
      refine (abs_add_le _ _).trans ?_
      rw [abs_mul, abs_of_nonneg ht0]; linarith
    have k3 : (t + 0.675 * (1 - t)) * (1 + u) ≤ 1 - u := by nlinarith
    calc |t * w + e| * (1 + u) ≤ (t * |w| + 0.675 * (1 - t) * |w|) * (1 + u) := mul_le_mul_of_nonneg_right k2 (by linarith)
      _ = |w| * ((t + 0.675 * (1 - t)) * (1 + u)) := by ring
      _ ≤ _ := mul_le_mul_of_nonneg_left k3 hw

/-- A point near two lines is near their intersection. -/
theorem near_crossing {w v f1 f2 : Fin 2 → ℝ} {a b E S : ℝ} (hw : w ≠ 0) (hv : v ≠ 0) (hS : S * (norm2 w * norm2 v) ≤ |w 0 * v 1 - w 1 * v 0|) (hS0 : 0 < S)
    (h1 : norm2 f1 ≤ E) (h2 : norm2 f2 ≤ E) (e : ∀ i, a * w i + f1 i = b * v i + f2 i) : norm2 (fun i => a * w i + f1 i) ≤ 3 * E / S := by
  have pw := norm2_pos hw
  have pv := norm2_pos hv
  have S1 : S ≤ 1 := by
    have := hS.trans (cross_le w v)
    by_contra hc
    have := mul_pos pw pv
    nlinarith
  have E0 := (norm2_nonneg f1).trans h1
  have c1 := cross_le f1 v
  have c2 := cross_le f2 v
  have ec : a * (w 0 * v 1 - w 1 * v 0) = (f2 0 * v 1 - f2 1 * v 0) - (f1 0 * v 1 - f1 1 * v 0) := by
    linear_combination v 1 * e 0 - v 0 * e 1
  have k1 : |a| * (S * (norm2 w * norm2 v)) ≤ 2 * E * norm2 v := by
    refine (mul_le_mul_of_nonneg_left hS (abs_nonneg a)).trans ?_
    rw [← abs_mul, ec]
    refine (abs_sub _ _).trans ?_
    have := mul_le_mul_of_nonneg_right h1 pv.le
    have := mul_le_mul_of_nonneg_right h2 pv.le
    linarith
  have k2 : |a| * norm2 w * S ≤ 2 * E := by
    refine le_of_mul_le_mul_right ?_ pv
    linarith
  refine (norm2_add_le _ _).trans ?_
  rw [norm2_smul, le_div_iff₀ hS0, add_mul]
  have := mul_le_mul h1 S1 hS0.le E0
  linarith

end Mathter.Fl
