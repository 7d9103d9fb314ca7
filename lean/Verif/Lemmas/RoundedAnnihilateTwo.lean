import Verif.Lemmas.RoundedAnnihilate

/-!
# Lemmas about the elements that the rotations of the rounded two-sided singular value decomposition remove
-/

namespace Mathter.Fl
open Mathter Mathter.Props
variable {r n m : ℕ} {fl : ℝ → ℝ} {u w : ℝ}

theorem hypErr_small (hu2 : u ≤ 1 / 1000) (hw : w ≤ 2 * u) : hypErr u w ≤ 32 / 10000 := by
  unfold hypErr
  have : 0 < 1 - w := by linarith
  rw [tsub_le_iff_right, div_le_iff₀ this]
  nlinarith

theorem sq_bd {c s : ℝ} (h : c ^ 2 + s ^ 2 ≤ 101 / 100) : s ^ 2 ≤ 101 / 100 ∧ |c * s| ≤ 51 / 100 :=
  ⟨by linarith [sq_nonneg c], by rw [_root_.abs_le]; constructor <;> nlinarith [sq_nonneg (c + s), sq_nonneg (c - s)]⟩

theorem tri_off (h : Rounding fl u) (hu2 : u ≤ 1 / 1000) {ps : ℝ → ℝ → ℝ → ℝ → ℝ} (hps : IsProdSum fl ps) {hyp : ℝ → ℝ → ℝ → ℝ}
    (hh : IsHypot w hyp) (hw0 : 0 ≤ w) (hw : w ≤ 2 * u) (neg : Bool) (r11 r12 r22 : ℝ) :
    |offDiag (r11 * r12) (r22 ^ 2 + r12 ^ 2 - r11 ^ 2) (diagonalizeTriangular fl ps hyp neg r11 r12 r22).1 (diagonalizeTriangular fl ps hyp neg r11 r12 r22).2| ≤
      22 * u * (r11 ^ 2 + r12 ^ 2 + r22 ^ 2) := by
  have hu := h.u_nonneg
  have hz : fl 0 = 0 := fl_zero h
  have hη := hypErr_small hu2 hw
  have hη0 := hypErr_nonneg h hw0 (by linarith)
  have hun := tri_unit h (by linarith) ps hh hw0 (by linarith) neg r11 r12 r22
  have hsq := sq_le_of_nearUnit hun
  have hsign := (rel_fl h (r12 * r11)).sign (by linarith)
  unfold diagonalizeTriangular at *
  simp only at *
  by_cases h0 : fl (r12 * r11) = 0
  · rw [if_pos h0] at *
    have : r11 * r12 = 0 := by rw [mul_comm]; exact hsign.2.1 h0
    unfold offDiag; rw [this]
    simp
    positivity
  rw [if_neg h0] at *
  have hp0 : r12 * r11 ≠ 0 := fun e => h0 (hsign.2.2 e)
  have hzerr : |ps (fl (r22 + r11)) (fl (r22 - r11)) r12 r12 - (r22 ^ 2 + r12 ^ 2 - r11 ^ 2)| ≤ 402 / 100 * u * (r11 ^ 2 + r12 ^ 2 + r22 ^ 2) := by
    have := (near_ps h hps ((Near.exact (u := u) (r22 + r11)).round h) ((Near.exact (u := u) (r22 - r11)).round h)
      ((Near.exact (u := u) r12).mono h (Nat.le_succ 0)) ((Near.exact (u := u) r12).mono h (Nat.le_succ 0))).err
    rw [show (r22 + r11) * (r22 - r11) + r12 * r12 = r22 ^ 2 + r12 ^ 2 - r11 ^ 2 by ring] at this
    have e1 : |r22 + r11| * |r22 - r11| + |r12| * |r12| ≤ r11 ^ 2 + r12 ^ 2 + r22 ^ 2 := by
      rw [← abs_mul, abs_mul_abs_self]
      have : |(r22 + r11) * (r22 - r11)| ≤ r11 ^ 2 + r22 ^ 2 := by
        rw [_root_.abs_le]; constructor <;> nlinarith [sq_nonneg r11, sq_nonneg r22]
      linarith
    have e2 : (1 + u) ^ (0 + 1 + (0 + 1) + 2) - 1 ≤ 402 / 100 * u := by
      norm_num
      have : u ^ 2 ≤ 1 / 1000 * u := by rw [sq]; exact mul_le_mul_of_nonneg_right hu2 hu
      nlinarith [mul_nonneg hu (sq_nonneg u), sq_nonneg (u ^ 2), mul_le_mul_of_nonneg_left this hu, mul_le_mul_of_nonneg_left this (sq_nonneg u)]
    exact this.trans (mul_le_mul e2 e1 (by positivity) (by positivity))
  set z := ps (fl (r22 + r11)) (fl (r22 - r11)) r12 r12
  clear_value z
  have hd : Rel u (605 / 100) (fl (Real.sqrt (ps (fl (4 * fl (r11 * r11))) (fl (r12 * r12)) z z))) (Real.sqrt (z ^ 2 + (2 * (r11 * r12)) ^ 2)) := by
    have q1 := (Rel.refl hu le_rfl (4 : ℝ)).mul hu hu2 (by norm_num) (by norm_num) (rel_fl h (r11 * r11)) (m := 1) (by norm_num)
    have q2 := q1.round h hu2 (by norm_num) (m := 2001 / 1000) (by norm_num)
    have q3 := q2.mul hu hu2 (by norm_num) (by norm_num) (rel_fl h (r12 * r12)) (m := 301 / 100) (by norm_num)
    have n1 : 0 ≤ fl (4 * fl (r11 * r11)) := by
      have := q2.sign (by linarith)
      by_contra hn
      have := this.1.1 (not_le.1 hn)
      nlinarith [sq_nonneg r11]
    have n2 : 0 ≤ fl (r12 * r12) := by
      have := (rel_fl h (r12 * r12)).sign (by linarith)
      by_contra hn
      have := this.1.1 (not_le.1 hn)
      nlinarith [sq_nonneg r12]
    have q4 := rel_ps_nonneg h hu2 hps (mul_nonneg n1 n2) (mul_self_nonneg z)
    have q5 := q3.add (Rel.refl hu (by norm_num : (0 : ℝ) ≤ 301 / 100) (z * z)) (mul_nonneg (by nlinarith [mul_nonneg (sq_nonneg r11) (sq_nonneg r12)]) (mul_self_nonneg z))
    have q6 := q5.trans hu hu2 (by norm_num) (by norm_num) q4 (m := 503 / 100) (by norm_num)
    rw [show 4 * (r11 * r11) * (r12 * r12) + z * z = z ^ 2 + (2 * (r11 * r12)) ^ 2 by ring] at q6
    exact (q6.sqrt (by linarith) (by positivity)).round h hu2 (by norm_num) (by norm_num)
  set d := fl (Real.sqrt (ps (fl (4 * fl (r11 * r11))) (fl (r12 * r12)) z z))
  clear_value d
  have hdd : Real.sqrt (z ^ 2 + (2 * (r11 * r12)) ^ 2) ^ 2 = z ^ 2 + (2 * (r11 * r12)) ^ 2 := Real.sq_sqrt (by positivity)
  obtain ⟨k1, k2, k3⟩ := root_larger neg z (Real.sqrt_nonneg _) hdd
  have q1 := (Rel.refl hu (by norm_num : (0 : ℝ) ≤ 605 / 100) z).copysign (by linarith) neg (Real.sqrt_nonneg _) hd
  have q2 := q1.round h hu2 (by norm_num) (m := 706 / 100) (by norm_num)
  have q3 := (Rel.refl hu le_rfl (1 / 2 : ℝ)).mul hu hu2 (by norm_num) (by norm_num) q2 (m := 706 / 100) (by norm_num)
  have q4 := q3.round h hu2 (by norm_num) (m := 807 / 100) (by norm_num)
  have q5 := q4.div hu hu2 (by norm_num) (by norm_num) (by norm_num) (rel_fl h (r12 * r11)) (m := 909 / 100) (by norm_num)
  have q6 := q5.round h hu2 (by norm_num) (m := 1011 / 100) (by norm_num)
  set L := 1 / 2 * (z + copysignR neg (Real.sqrt (z ^ 2 + (2 * (r11 * r12)) ^ 2)) z)
  set t := fl (fl (1 / 2 * fl (z + copysignR neg d z)) / fl (r12 * r11))
  clear_value L t
  have hp0' : r11 * r12 ≠ 0 := by rwa [mul_comm]
  have hL0 : L ≠ 0 := by
    intro hn
    rw [hn, abs_zero] at k3
    exact hp0' (abs_nonpos_iff.1 k3)
  have ht0 : t ≠ 0 := fun e => div_ne_zero hL0 hp0 ((q6.sign (by linarith)).2.1 e)
  have hsc := rel_hyp hh hw 1 t
  have hsc0 : hyp 1 t 0 ≠ 0 := by
    intro e
    have := (hsc.sign (by linarith)).2.1 e
    exact absurd this (Real.sqrt_pos.2 (by positivity)).ne'
  set sc := hyp 1 t 0
  clear_value sc
  have q7 : Rel u (201 / 100) (fl (1 / sc) / fl (t / sc)) (1 / sc / (t / sc)) :=
    (rel_fl h _).div hu hu2 (by norm_num) (by norm_num) (by norm_num) (rel_fl h _) (by norm_num)
  rw [show 1 / sc / (t / sc) = t⁻¹ by field_simp] at q7
  have q8 := q6.inv hu hu2 (by norm_num) (by norm_num) (m := 1022 / 100) (by norm_num)
  have q9 := q8.trans hu hu2 (by norm_num) (by norm_num) q7 (m := 1226 / 100) (by norm_num)
  rw [show (L / (r12 * r11))⁻¹ = r11 * r12 / L by rw [inv_div, mul_comm]] at q9
  have hs0 : fl (t / sc) ≠ 0 := by
    rw [Ne, ((rel_fl h (t / sc)).sign (by linarith)).2]
    exact div_ne_zero ht0 hsc0
  have hoff := offDiag_root hu (by norm_num) (by linarith) hL0 k1 k2 k3 hs0 q9
  set c := fl (1 / sc)
  set s := fl (t / sc)
  clear_value c s
  have hcs : c ^ 2 + s ^ 2 ≤ 101 / 100 := hsq.trans ((pow_le_pow_left₀ (by linarith) (by linarith : 1 + hypErr u w ≤ 10032 / 10000) 2).trans (by norm_num))
  obtain ⟨hs2, c2⟩ := sq_bd hcs
  have e : offDiag (r11 * r12) (r22 ^ 2 + r12 ^ 2 - r11 ^ 2) c s = offDiag (r11 * r12) z c s - c * s * (z - (r22 ^ 2 + r12 ^ 2 - r11 ^ 2)) := by
    unfold offDiag; ring
  rw [e]
  refine (abs_sub _ _).trans ?_
  rw [abs_mul (c * s)]
  have d1 := mul_le_mul c2 hzerr (abs_nonneg _) (by norm_num)
  have hp : |r11 * r12| ≤ (r11 ^ 2 + r12 ^ 2 + r22 ^ 2) / 2 := by
    rw [_root_.abs_le]; constructor <;> nlinarith [sq_nonneg (r11 + r12), sq_nonneg (r11 - r12), sq_nonneg r22]
  have d2 := mul_le_mul hs2 (mul_le_mul_of_nonneg_left hp (by positivity : 0 ≤ 31 / 10 * (1226 / 100 * u))) (by positivity) (by norm_num)
  have k0 : 0 ≤ u * (r11 ^ 2 + r12 ^ 2 + r22 ^ 2) := by positivity
  linarith

/-- `|a c + b s|` for a pair of length about one. -/
theorem lin_bd {a b c s M : ℝ} (ha : |a| ≤ M) (hb : |b| ≤ M) (hcs : c ^ 2 + s ^ 2 ≤ 103 / 100) : |a| * |c| + |b| * |s| ≤ 144 / 100 * M := by
  have hM := (abs_nonneg a).trans ha
  have h1 : |c| + |s| ≤ 144 / 100 := by
    apply le_of_sq_le_sq _ (by norm_num)
    rw [← sq_abs c, ← sq_abs s] at hcs
    nlinarith [sq_nonneg (|c| - |s|)]
  have := mul_le_mul_of_nonneg_right ha (abs_nonneg c)
  have := mul_le_mul_of_nonneg_right hb (abs_nonneg s)
  have := mul_le_mul_of_nonneg_left h1 hM
  linarith

/-- The triangular factor is the product of the matrix and the rotation, up to rounding errors. -/
structure RQErr (u b11 b12 b21 b22 : ℝ) (d : RQ2 ℝ) : Prop where
  r11 : |d.r11 - (b11 * d.cq - b12 * d.sq)| ≤ 3 * u
  r12 : |d.r12 - (b11 * d.sq + b12 * d.cq)| ≤ 3 * u
  r21 : |b21 * d.cq - b22 * d.sq| ≤ 5 * u
  r22 : |d.r22 - (b21 * d.sq + b22 * d.cq)| ≤ 23 * u

theorem rq_err (h : Rounding fl u) (hu2 : u ≤ 1 / 1000) {ps pd : ℝ → ℝ → ℝ → ℝ → ℝ} (hps : IsProdSum fl ps) (hpd : IsProdDiff fl pd) {b11 b12 b21 b22 : ℝ}
    (h11 : |b11| ≤ 1001 / 1000) (h12 : |b12| ≤ 1001 / 1000) (h21 : |b21| ≤ 1001 / 1000) (h22 : |b22| ≤ 1001 / 1000) :
    RQErr u b11 b12 b21 b22 (decomposeRQ2 fl ps pd b11 b12 b21 b22) := by
  have hu := h.u_nonneg
  have hη := unitErr_small hu hu2
  have hη0 := unitErr_nonneg h (by linarith : u < 1)
  have hun := rq_unit h (by linarith : u < 1) hps pd b11 b12 b21 b22
  have hsq := sq_le_of_nearUnit hun
  unfold decomposeRQ2 at *
  by_cases h0 : b21 = 0
  · rw [if_pos h0]
    constructor <;> simp [h0, hu]
  rw [if_neg h0] at *
  simp only at *
  have hsd : 0 < max |b21| |b22| := lt_max_of_lt_left (abs_pos.2 h0)
  set sd := max |b21| |b22|
  have q1 := rel_fl h (b21 / sd)
  have q2 := rel_fl h (b22 / sd)
  set x := fl (b21 / sd) with hx
  set y := fl (b22 / sd) with hy
  have q3 := q1.mul hu hu2 (by norm_num) (by norm_num) q1 (m := 2001 / 1000) (by norm_num)
  have q4 := q2.mul hu hu2 (by norm_num) (by norm_num) q2 (m := 2001 / 1000) (by norm_num)
  have q5 := q3.add q4 (mul_nonneg (mul_self_nonneg _) (mul_self_nonneg _))
  have q6 := q5.trans hu hu2 (by norm_num) (by norm_num) (rel_ps_nonneg h hu2 hps (mul_self_nonneg x) (mul_self_nonneg y)) (m := 402 / 100) (by norm_num)
  have q7 := (q6.sqrt (by linarith) (add_nonneg (mul_self_nonneg _) (mul_self_nonneg _))).round h hu2 (by norm_num) (m := 503 / 100) (by norm_num)
  set D := fl (Real.sqrt (ps x x y y))
  set T := Real.sqrt (b21 ^ 2 + b22 ^ 2) with hT
  have hT0 : 0 < T := Real.sqrt_pos.2 (by positivity)
  have hTT : T * T = b21 ^ 2 + b22 ^ 2 := Real.mul_self_sqrt (by positivity)
  have eT : sd * Real.sqrt (b21 / sd * (b21 / sd) + b22 / sd * (b22 / sd)) = T := by
    rw [show b21 / sd * (b21 / sd) + b22 / sd * (b22 / sd) = (b21 ^ 2 + b22 ^ 2) / sd ^ 2 by field_simp, Real.sqrt_div (by positivity), Real.sqrt_sq hsd.le]
    field_simp
    rfl
  have q8 := (Rel.refl hu le_rfl sd).mul hu hu2 (by norm_num) (by norm_num) q7 (m := 503 / 100) (by norm_num)
  rw [eT] at q8
  have hT1 : T ≤ 142 / 100 := by
    rw [hT, Real.sqrt_le_left (by norm_num)]
    have a1 := pow_le_pow_left₀ (abs_nonneg _) h21 2
    have a2 := pow_le_pow_left₀ (abs_nonneg _) h22 2
    rw [sq_abs] at a1 a2
    norm_num at *
    linarith
  have hD0 : D ≠ 0 := by
    intro e
    rw [e, mul_zero] at q8
    exact hT0.ne' ((q8.sign (by linarith)).2.1 rfl)
  have rx : Rel u (202 / 100) (fl (x / D)) (b21 / (sd * D)) := by
    have := (q1.div hu hu2 (by norm_num) le_rfl (by norm_num) (Rel.refl hu le_rfl D) (m := 1) (by norm_num)).round h hu2 (by norm_num) (m := 202 / 100) (by norm_num)
    rwa [div_div] at this
  have ry : Rel u (202 / 100) (fl (y / D)) (b22 / (sd * D)) := by
    have := (q2.div hu hu2 (by norm_num) le_rfl (by norm_num) (Rel.refl hu le_rfl D) (m := 1) (by norm_num)).round h hu2 (by norm_num) (m := 202 / 100) (by norm_num)
    rwa [div_div] at this
  have hDx : ∀ b, fl (b / D) ≠ 0 → b ≠ 0 := by
    intro b hb e
    rw [e, zero_div, fl_zero h] at hb
    exact hb rfl
  have key : ∀ b, b ≠ 0 → Rel u (81 / 10) (fl (sd * fl (b / fl (b / D)))) T := by
    intro b hb
    have p1 := (Rel.refl hu le_rfl b).div hu hu2 le_rfl (by norm_num) (by norm_num) (rel_fl h (b / D)) (m := 101 / 100) (by norm_num)
    rw [show b / (b / D) = D by field_simp] at p1
    have p2 := p1.round h hu2 (by norm_num) (m := 202 / 100) (by norm_num)
    have p3 := (Rel.refl hu le_rfl sd).mul hu hu2 le_rfl (by norm_num) p2 (m := 202 / 100) (by norm_num)
    have p4 := p3.round h hu2 (by norm_num) (m := 303 / 100) (by norm_num)
    exact q8.trans hu hu2 (by norm_num) (by norm_num) p4 (by norm_num)
  have hx0 : x ≠ 0 := by
    rw [Ne, (q1.sign (by linarith)).2]
    exact div_ne_zero h0 hsd.ne'
  have hr22 : Rel u (81 / 10) (fl (sd * (if |b21| > |b22| then fl (x / fl (x / D)) else fl (y / fl (y / D))))) T := by
    split
    · exact key x hx0
    · rename_i hle
      apply key y
      rw [Ne, (q2.sign (by linarith)).2]
      refine div_ne_zero ?_ hsd.ne'
      rintro rfl
      rw [abs_zero] at hle
      exact hle (abs_pos.2 h0)
  generalize fl (sd * (if |b21| > |b22| then fl (x / fl (x / D)) else fl (y / fl (y / D)))) = r22 at *
  have hcs : fl (y / D) ^ 2 + fl (x / D) ^ 2 ≤ 103 / 100 := hsq.trans ((pow_le_pow_left₀ (by linarith) (by linarith : 1 + unitErr u ≤ 251 / 250) 2).trans (by norm_num))
  have rxT : Rel u (715 / 100) (fl (x / D)) (b21 / T) := by
    have := (Rel.refl hu le_rfl b21).div hu hu2 le_rfl (by norm_num) (by norm_num) q8 (m := 506 / 100) (by norm_num)
    exact this.trans hu hu2 (by norm_num) (by norm_num) rx (by norm_num)
  have ryT : Rel u (715 / 100) (fl (y / D)) (b22 / T) := by
    have := (Rel.refl hu le_rfl b22).div hu hu2 le_rfl (by norm_num) (by norm_num) q8 (m := 506 / 100) (by norm_num)
    exact this.trans hu hu2 (by norm_num) (by norm_num) ry (by norm_num)
  clear_value D x y
  generalize fl (x / D) = s at *
  generalize fl (y / D) = c at *
  have f : ∀ a b : ℝ, |a| ≤ 1001 / 1000 → |b| ≤ 1001 / 1000 → 201 / 100 * u * (|a| * |c| + |b| * |s|) ≤ 3 * u := by
    intro a b ha hb
    have := mul_le_mul_of_nonneg_left (lin_bd ha hb hcs) (by positivity : 0 ≤ 201 / 100 * u)
    linarith
  refine ⟨(pd_small h hu2 hpd _ _ _ _).trans (f _ _ h11 h12), ?_, ?_, ?_⟩
  · refine (ps_small h hu2 hps _ _ _ _).trans ?_
    rw [add_comm]
    exact f _ _ h12 h11
  · set W := sd * D
    have hW : W ≠ 0 := mul_ne_zero hsd.ne' hD0
    have e : b21 * c - b22 * s = b21 * (c - b22 / W) - b22 * (s - b21 / W) := by field_simp; ring
    rw [e]
    refine (abs_sub _ _).trans ?_
    rw [abs_mul, abs_mul]
    have g1 := mul_le_mul_of_nonneg_left ry (abs_nonneg b21)
    have g2 := mul_le_mul_of_nonneg_left rx (abs_nonneg b22)
    have e2 : |b22| * |b21 / W| = |b21| * |b22 / W| := by rw [← abs_mul, ← abs_mul]; congr 1; field_simp
    have hle := ry.le_abs
    have hc1 : |c| ≤ 102 / 100 := by
      apply abs_le_of_sq_le_sq _ (by norm_num)
      nlinarith [sq_nonneg s]
    have hb : |b22 / W| ≤ 103 / 100 := by nlinarith [abs_nonneg (b22 / W)]
    have g3 := mul_le_mul h21 hb (abs_nonneg _) (by norm_num)
    have g4 := mul_le_mul_of_nonneg_left g3 hu
    nlinarith
  · have p1 := (Rel.refl hu le_rfl b21).mul hu hu2 le_rfl (by norm_num) rxT (m := 715 / 100) (by norm_num)
    have p2 := (Rel.refl hu le_rfl b22).mul hu hu2 le_rfl (by norm_num) ryT (m := 715 / 100) (by norm_num)
    have p3 := p1.add p2 (by
      rw [show b21 * (b21 / T) * (b22 * (b22 / T)) = (b21 * b22 / T) ^ 2 by ring]
      exact sq_nonneg _)
    rw [show b21 * (b21 / T) + b22 * (b22 / T) = T by field_simp; linarith] at p3
    unfold Rel at p3 hr22
    rw [abs_of_pos hT0] at p3 hr22
    have t := abs_sub (r22 - T) (b21 * s + b22 * c - T)
    rw [sub_sub_sub_cancel_right] at t
    have := mul_le_mul_of_nonneg_left hT1 hu
    linarith

/-- `|a c + b s|` for bounds of both pairs. -/
theorem lin_abs {a b c s M : ℝ} (ha : |a| ≤ M) (hb : |b| ≤ M) (hcs : c ^ 2 + s ^ 2 ≤ 103 / 100) : |a * c + b * s| ≤ 144 / 100 * M :=
  ((abs_add_le _ _).trans (by rw [abs_mul, abs_mul])).trans (lin_bd ha hb hcs)

theorem lin_abs' {a b c s M : ℝ} (ha : |a| ≤ M) (hb : |b| ≤ M) (hcs : c ^ 2 + s ^ 2 ≤ 103 / 100) : |b * c - a * s| ≤ 144 / 100 * M :=
  ((abs_sub _ _).trans (by rw [abs_mul, abs_mul])).trans (lin_bd hb ha hcs)

theorem abs_le_of_pair {c s : ℝ} (hcs : c ^ 2 + s ^ 2 ≤ 101 / 100) : |c| ≤ 101 / 100 ∧ |s| ≤ 101 / 100 :=
  ⟨abs_le_of_sq_le_sq (by nlinarith [sq_nonneg s]) (by norm_num), abs_le_of_sq_le_sq (by nlinarith [sq_nonneg c]) (by norm_num)⟩

/-- One element of the rotated matrix, by the given and by the triangular matrix. -/
theorem rotated_elem {a b cq sq c1 s1 cv sv r1 r2 e1 e2 : ℝ} (ha : |a| ≤ 1001 / 1000) (hb : |b| ≤ 1001 / 1000) (hc1 : |c1| ≤ 101 / 100) (hs1 : |s1| ≤ 101 / 100)
    (hcv : |cv - (cq * c1 + sq * s1)| ≤ 21 / 10 * u) (hsv : |sv - (-sq * c1 + cq * s1)| ≤ 21 / 10 * u)
    (h1 : |r1 - (a * cq - b * sq)| ≤ e1) (h2 : |r2 - (a * sq + b * cq)| ≤ e2) :
    |a * cv + b * sv - (r1 * c1 + r2 * s1)| ≤ 422 / 100 * u + 101 / 100 * (e1 + e2) := by
  have e : a * cv + b * sv - (r1 * c1 + r2 * s1) = (a * (cv - (cq * c1 + sq * s1)) + b * (sv - (-sq * c1 + cq * s1))) -
      ((r1 - (a * cq - b * sq)) * c1 + (r2 - (a * sq + b * cq)) * s1) := by ring
  rw [e]
  refine (abs_sub _ _).trans ?_
  have t1 := abs_add_le (a * (cv - (cq * c1 + sq * s1))) (b * (sv - (-sq * c1 + cq * s1)))
  have t2 := abs_add_le ((r1 - (a * cq - b * sq)) * c1) ((r2 - (a * sq + b * cq)) * s1)
  rw [abs_mul, abs_mul] at t1 t2
  have a1 := mul_le_mul ha hcv (abs_nonneg _) (by norm_num)
  have a2 := mul_le_mul hb hsv (abs_nonneg _) (by norm_num)
  have a3 := mul_le_mul h1 hc1 (abs_nonneg _) ((abs_nonneg _).trans h1)
  have a4 := mul_le_mul h2 hs1 (abs_nonneg _) ((abs_nonneg _).trans h2)
  have : 0 ≤ u := by linarith [(abs_nonneg _).trans hcv]
  linarith

theorem prod_diff {x y X Y e M N : ℝ} (hx : |x - X| ≤ e) (hy : |y - Y| ≤ e) (hM : |y| ≤ M) (hN : |X| ≤ N) : |x * y - X * Y| ≤ e * (M + N) := by
  have he := (abs_nonneg _).trans hx
  rw [show x * y - X * Y = (x - X) * y + X * (y - Y) by ring]
  refine (abs_add_le _ _).trans ?_
  rw [abs_mul, abs_mul]
  have a1 := mul_le_mul hx hM (abs_nonneg _) he
  have a2 := mul_le_mul hN hy (abs_nonneg _) ((abs_nonneg _).trans hN)
  linarith

/-- The columns of the scaled matrix after the right rotation are nearly orthogonal. -/
theorem right_off (hu : 0 ≤ u) (hu2 : u ≤ 1 / 1000) {b11 b12 b21 b22 c1 s1 cv sv : ℝ} {d : RQ2 ℝ} (hb11 : |b11| ≤ 1001 / 1000) (hb12 : |b12| ≤ 1001 / 1000)
    (hb21 : |b21| ≤ 1001 / 1000) (hb22 : |b22| ≤ 1001 / 1000) (hE : RQErr u b11 b12 b21 b22 d) (hq : d.cq ^ 2 + d.sq ^ 2 ≤ 103 / 100)
    (h1 : c1 ^ 2 + s1 ^ 2 ≤ 101 / 100) (hoff : |offDiag (d.r11 * d.r12) (d.r22 ^ 2 + d.r12 ^ 2 - d.r11 ^ 2) c1 s1| ≤ 22 * u * (d.r11 ^ 2 + d.r12 ^ 2 + d.r22 ^ 2))
    (hcv : |cv - (d.cq * c1 + d.sq * s1)| ≤ 21 / 10 * u) (hsv : |sv - (-d.sq * c1 + d.cq * s1)| ≤ 21 / 10 * u) (hv : cv ^ 2 + sv ^ 2 ≤ 103 / 100) :
    |offDiag (b11 * b12 + b21 * b22) (b12 ^ 2 + b22 ^ 2 - b11 ^ 2 - b21 ^ 2) cv sv| ≤ 270 * u := by
  obtain ⟨k1, k2⟩ := abs_le_of_pair h1
  have k1' : |-s1| ≤ 101 / 100 := by rwa [abs_neg]
  have hsv' : |-sv - (d.cq * -s1 + d.sq * c1)| ≤ 21 / 10 * u := by
    rw [← abs_neg]; convert hsv using 2; ring
  have hcv' : |cv - (-d.sq * -s1 + d.cq * c1)| ≤ 21 / 10 * u := by convert hcv using 2; ring
  have x1 := rotated_elem hb11 hb12 k1 k2 hcv hsv hE.r11 hE.r12
  have y1 := rotated_elem hb11 hb12 k1' k1 hsv' hcv' hE.r11 hE.r12
  have z21 : |0 - (b21 * d.cq - b22 * d.sq)| ≤ 5 * u := by rw [zero_sub, abs_neg]; exact hE.r21
  have x2 := rotated_elem hb21 hb22 k1 k2 hcv hsv z21 hE.r22
  have y2 := rotated_elem hb21 hb22 k1' k1 hsv' hcv' z21 hE.r22
  have hv' : (-sv) ^ 2 + cv ^ 2 ≤ 103 / 100 := by linarith [neg_sq sv]
  have m1 := lin_abs hb11 hb12 hv'
  have m2 := lin_abs hb21 hb22 hv'
  have n1 := lin_abs hb11 hb12 hv
  have n2 := lin_abs hb21 hb22 hv
  have r11 : |d.r11| ≤ 145 / 100 := by
    have t := abs_add_le (d.r11 - (b11 * d.cq - b12 * d.sq)) (b11 * d.cq - b12 * d.sq)
    rw [sub_add_cancel] at t
    have := lin_abs' hb12 hb11 hq
    linarith [hE.r11]
  have r12 : |d.r12| ≤ 145 / 100 := by
    have t := abs_add_le (d.r12 - (b11 * d.sq + b12 * d.cq)) (b11 * d.sq + b12 * d.cq)
    rw [sub_add_cancel] at t
    have := lin_abs hb12 hb11 hq
    rw [add_comm] at this
    linarith [hE.r12]
  have r22 : |d.r22| ≤ 147 / 100 := by
    have t := abs_add_le (d.r22 - (b21 * d.sq + b22 * d.cq)) (b21 * d.sq + b22 * d.cq)
    rw [sub_add_cancel] at t
    have := lin_abs hb22 hb21 hq
    rw [add_comm] at this
    linarith [hE.r22]
  have hN : d.r11 ^ 2 + d.r12 ^ 2 + d.r22 ^ 2 ≤ 64 / 10 := by
    have a1 := pow_le_pow_left₀ (abs_nonneg _) r11 2
    have a2 := pow_le_pow_left₀ (abs_nonneg _) r12 2
    have a3 := pow_le_pow_left₀ (abs_nonneg _) r22 2
    rw [sq_abs] at a1 a2 a3
    norm_num at *
    linarith
  have X1 : |d.r11 * c1 + d.r12 * s1| ≤ 146 / 100 := by
    have t := abs_sub (b11 * cv + b12 * sv) (b11 * cv + b12 * sv - (d.r11 * c1 + d.r12 * s1))
    rw [sub_sub_cancel] at t
    linarith
  have X2 : |0 * c1 + d.r22 * s1| ≤ 148 / 100 := by
    have t := abs_sub (b21 * cv + b22 * sv) (b21 * cv + b22 * sv - (0 * c1 + d.r22 * s1))
    rw [sub_sub_cancel] at t
    linarith
  have p1 := prod_diff x1 y1 m1 X1
  have p2 := prod_diff x2 y2 m2 X2
  have e : offDiag (b11 * b12 + b21 * b22) (b12 ^ 2 + b22 ^ 2 - b11 ^ 2 - b21 ^ 2) cv sv =
      ((b11 * cv + b12 * sv) * (b11 * -sv + b12 * cv) - (d.r11 * c1 + d.r12 * s1) * (d.r11 * -s1 + d.r12 * c1)) +
      ((b21 * cv + b22 * sv) * (b21 * -sv + b22 * cv) - (0 * c1 + d.r22 * s1) * (0 * -s1 + d.r22 * c1)) +
      offDiag (d.r11 * d.r12) (d.r22 ^ 2 + d.r12 ^ 2 - d.r11 ^ 2) c1 s1 := by unfold offDiag; ring
  rw [e]
  have t1 := abs_add_le (((b11 * cv + b12 * sv) * (b11 * -sv + b12 * cv) - (d.r11 * c1 + d.r12 * s1) * (d.r11 * -s1 + d.r12 * c1)) +
      ((b21 * cv + b22 * sv) * (b21 * -sv + b22 * cv) - (0 * c1 + d.r22 * s1) * (0 * -s1 + d.r22 * c1)))
      (offDiag (d.r11 * d.r12) (d.r22 ^ 2 + d.r12 ^ 2 - d.r11 ^ 2) c1 s1)
  have t2 := abs_add_le ((b11 * cv + b12 * sv) * (b11 * -sv + b12 * cv) - (d.r11 * c1 + d.r12 * s1) * (d.r11 * -s1 + d.r12 * c1))
      ((b21 * cv + b22 * sv) * (b21 * -sv + b22 * cv) - (0 * c1 + d.r22 * s1) * (0 * -s1 + d.r22 * c1))
  have t3 := mul_le_mul_of_nonneg_left hN (by positivity : 0 ≤ 22 * u)
  linarith

/-- The rotation that normalizes a computed column `(a', b')`: it annihilates the column, and its product with the other column `(p, q)` is small. -/
theorem column_off (h : Rounding fl u) (hu2 : u ≤ 1 / 1000) {ps : ℝ → ℝ → ℝ → ℝ → ℝ} (hps : IsProdSum fl ps) {a b a' b' p q : ℝ}
    (ha : |a' - a| ≤ 3 * u) (hb : |b' - b| ≤ 3 * u) (hab : |a * p + b * q| ≤ 270 * u) (hp : |p| ≤ 1442 / 1000) (hq : |q| ≤ 1442 / 1000)
    (ha1 : |a| ≤ 1442 / 1000) (hb1 : |b| ≤ 1442 / 1000) (hT : 49 / 100 ≤ Real.sqrt (a' * a' + b' * b')) :
    |fl (a' / fl (Real.sqrt (ps a' a' b' b'))) * p + fl (b' / fl (Real.sqrt (ps a' a' b' b'))) * q| ≤ 585 * u ∧
      |fl (a' / fl (Real.sqrt (ps a' a' b' b'))) * b - fl (b' / fl (Real.sqrt (ps a' a' b' b'))) * a| ≤ 585 * u := by
  have hu := h.u_nonneg
  have q1 := rel_ps_nonneg h hu2 hps (mul_self_nonneg a') (mul_self_nonneg b')
  have q2 := (q1.sqrt (by linarith) (add_nonneg (mul_self_nonneg _) (mul_self_nonneg _))).round h hu2 (by norm_num) (m := 302 / 100) (by norm_num)
  set T := Real.sqrt (a' * a' + b' * b') with hTd
  have hTT : T * T = a' * a' + b' * b' := Real.mul_self_sqrt (add_nonneg (mul_self_nonneg _) (mul_self_nonneg _))
  have hT0 : 0 < T := by linarith
  have f : ∀ x : ℝ, Rel u (405 / 100) (fl (x / fl (Real.sqrt (ps a' a' b' b')))) (x / T) := fun x =>
    ((Rel.refl hu le_rfl x).div hu hu2 le_rfl (by norm_num) (by norm_num) q2 (m := 303 / 100) (by norm_num)).round h hu2 (by norm_num) (by norm_num)
  have fa := f a'
  have fb := f b'
  clear f
  generalize fl (a' / fl (Real.sqrt (ps a' a' b' b'))) = ca at *
  generalize fl (b' / fl (Real.sqrt (ps a' a' b' b'))) = cb at *
  clear_value T
  have hat : |a' / T| ≤ 1 := by
    rw [abs_div, abs_of_pos hT0, div_le_one hT0]
    exact abs_le_of_sq_le_sq (by nlinarith [mul_self_nonneg b']) hT0.le
  have hbt : |b' / T| ≤ 1 := by
    rw [abs_div, abs_of_pos hT0, div_le_one hT0]
    exact abs_le_of_sq_le_sq (by nlinarith [mul_self_nonneg a']) hT0.le
  have da : |ca - a' / T| ≤ 405 / 100 * u := le_trans fa (by have := mul_le_mul_of_nonneg_left hat (by positivity : 0 ≤ 405 / 100 * u); linarith)
  have db : |cb - b' / T| ≤ 405 / 100 * u := le_trans fb (by have := mul_le_mul_of_nonneg_left hbt (by positivity : 0 ≤ 405 / 100 * u); linarith)
  have hca : |ca| ≤ 102 / 100 := by
    have t := abs_add_le (ca - a' / T) (a' / T)
    rw [sub_add_cancel] at t
    linarith
  have hcb : |cb| ≤ 102 / 100 := by
    have t := abs_add_le (cb - b' / T) (b' / T)
    rw [sub_add_cancel] at t
    linarith
  have m2 : ∀ {x y X Y : ℝ}, |x| ≤ X → |y| ≤ Y → |x * y| ≤ X * Y := by
    intro x y X Y hx hy
    rw [abs_mul]
    exact mul_le_mul hx hy (abs_nonneg _) ((abs_nonneg _).trans hx)
  constructor
  · have e : ca * p + cb * q = ((ca - a' / T) * p + (cb - b' / T) * q) + ((a' - a) * p + (b' - b) * q + (a * p + b * q)) / T := by field_simp; ring
    rw [e]
    have t1 := abs_add_le ((ca - a' / T) * p + (cb - b' / T) * q) (((a' - a) * p + (b' - b) * q + (a * p + b * q)) / T)
    have t2 := abs_add_le ((ca - a' / T) * p) ((cb - b' / T) * q)
    have t3 := abs_add_le ((a' - a) * p + (b' - b) * q) (a * p + b * q)
    have t4 := abs_add_le ((a' - a) * p) ((b' - b) * q)
    have t5 : |((a' - a) * p + (b' - b) * q + (a * p + b * q)) / T| ≤ 570 * u := by
      rw [abs_div, abs_of_pos hT0, div_le_iff₀ hT0]
      have := mul_le_mul_of_nonneg_left hT (by positivity : 0 ≤ 570 * u)
      have := m2 ha hp
      have := m2 hb hq
      linarith
    have := m2 da hp
    have := m2 db hq
    linarith
  · have e : ca * b - cb * a = ((ca - a' / T) * b' - (cb - b' / T) * a') - (ca * (b' - b) - cb * (a' - a)) := by field_simp; ring
    rw [e]
    have t1 := abs_sub ((ca - a' / T) * b' - (cb - b' / T) * a') (ca * (b' - b) - cb * (a' - a))
    have t2 := abs_sub ((ca - a' / T) * b') ((cb - b' / T) * a')
    have t3 := abs_sub (ca * (b' - b)) (cb * (a' - a))
    have hb' : |b'| ≤ 145 / 100 := by
      have t := abs_add_le (b' - b) b
      rw [sub_add_cancel] at t
      linarith
    have ha' : |a'| ≤ 145 / 100 := by
      have t := abs_add_le (a' - a) a
      rw [sub_add_cancel] at t
      linarith
    have := m2 da hb'
    have := m2 db ha'
    have := m2 hca hb
    have := m2 hcb ha
    linarith

theorem len_of_max {a b T : ℝ} (h : T ≤ |a|) (hT : 0 ≤ T) : T ≤ Real.sqrt (a * a + b * b) := by
  apply Real.le_sqrt_of_sq_le
  have := pow_le_pow_left₀ hT h 2
  rw [sq_abs] at this
  nlinarith [mul_self_nonneg b]

/-- The left rotation. `x`, `y` are the columns of the scaled matrix after the right rotation. -/
theorem left_off (h : Rounding fl u) (hu2 : u ≤ 1 / 1000) {ps : ℝ → ℝ → ℝ → ℝ → ℝ} (hps : IsProdSum fl ps) (zs : ZeroSigns ℝ)
    {x1 x2 y1 y2 x1' x2' y1' y2' : ℝ} (hx1 : |x1' - x1| ≤ 3 * u) (hx2 : |x2' - x2| ≤ 3 * u) (hy1 : |y1' - y1| ≤ 3 * u) (hy2 : |y2' - y2| ≤ 3 * u)
    (bx1 : |x1| ≤ 1442 / 1000) (bx2 : |x2| ≤ 1442 / 1000) (by1 : |y1| ≤ 1442 / 1000) (by2 : |y2| ≤ 1442 / 1000) (hxy : |x1 * y1 + x2 * y2| ≤ 270 * u)
    (hF : 98 / 100 - 2 / 1000 ≤ x1 ^ 2 + x2 ^ 2 + y1 ^ 2 + y2 ^ 2) :
    let d := scaledOrthogonal2 fl ps zs.one x1' y1' x2' y2'
    |d.1 * y1 + d.2.1 * y2| ≤ 585 * u ∧ |d.1 * x2 - d.2.1 * x1| ≤ 585 * u := by
  have hu := h.u_nonneg
  unfold scaledOrthogonal2
  simp only
  have hmax := maxIdx4_le fun i => |(![x1', x2', y1', y2'] : Fin 4 → ℝ) i|
  set k := maxIdx4 fun i => |(![x1', x2', y1', y2'] : Fin 4 → ℝ) i|
  clear_value k
  have hk : 49 / 100 ≤ |(![x1', x2', y1', y2'] : Fin 4 → ℝ) k| := by
    by_contra hn
    rw [not_le] at hn
    have g : ∀ {a a' : ℝ}, |a' - a| ≤ 3 * u → |a'| < 49 / 100 → a ^ 2 ≤ (493 / 1000) ^ 2 := by
      intro a a' h1 h2
      have t := abs_sub a' (a' - a)
      rw [sub_sub_cancel] at t
      rw [← sq_abs]
      exact pow_le_pow_left₀ (abs_nonneg _) (by linarith) 2
    have g0 := g hx1 (lt_of_le_of_lt (hmax 0) hn)
    have g1 := g hx2 (lt_of_le_of_lt (hmax 1) hn)
    have g2 := g hy1 (lt_of_le_of_lt (hmax 2) hn)
    have g3 := g hy2 (lt_of_le_of_lt (hmax 3) hn)
    norm_num at g0 g1 g2 g3
    linarith
  generalize (if k = 1 ∨ k = 2 then -fl (![x1', x2', y1', y2'] (3 - k) / ![x1', x2', y1', y2'] k) else fl (![x1', x2', y1', y2'] (3 - k) / ![x1', x2', y1', y2'] k)) = y
  have hs := normalizeK_abs zs y
  generalize normalizeK zs.one y = s at *
  have hs1 : |s| = 1 := by rcases hs with rfl | rfl <;> simp
  by_cases hle : k ≤ 1
  · simp only [if_pos hle]
    have hT : 49 / 100 ≤ Real.sqrt (x1' * x1' + x2' * x2') := by
      fin_cases k
      · exact len_of_max (by simpa using hk) (by norm_num)
      · rw [add_comm]; exact len_of_max (by simpa using hk) (by norm_num)
      · exact absurd hle (by decide)
      · exact absurd hle (by decide)
    exact column_off h hu2 hps hx1 hx2 hxy by1 by2 bx1 bx2 hT
  · simp only [if_neg hle]
    have hT : 49 / 100 ≤ Real.sqrt (y1' * y1' + y2' * y2') := by
      fin_cases k
      · exact absurd (by decide) hle
      · exact absurd (by decide) hle
      · exact len_of_max (by simpa using hk) (by norm_num)
      · rw [add_comm]; exact len_of_max (by simpa using hk) (by norm_num)
    have hyx : |y1 * x1 + y2 * x2| ≤ 270 * u := by rw [mul_comm y1, mul_comm y2]; exact hxy
    obtain ⟨c1, c2⟩ := column_off h hu2 hps hy1 hy2 hyx bx1 bx2 by1 by2 hT
    simp only [Matrix.cons_val]
    have f1 := fl_mul_sign h hs (h.idem (y2' / fl (Real.sqrt (ps y1' y1' y2' y2'))))
    have f2 := fl_mul_sign h hs (x := -fl (y1' / fl (Real.sqrt (ps y1' y1' y2' y2')))) (by rw [h.odd, h.idem])
    rw [f1, f2]
    generalize fl (y1' / fl (Real.sqrt (ps y1' y1' y2' y2'))) = ca at *
    generalize fl (y2' / fl (Real.sqrt (ps y1' y1' y2' y2'))) = cb at *
    constructor
    · rw [show cb * s * y1 + -ca * s * y2 = s * -(ca * y2 - cb * y1) by ring, abs_mul, hs1, one_mul, abs_neg]
      exact c2
    · rw [show cb * s * x2 - -ca * s * x1 = s * (ca * x1 + cb * x2) by ring, abs_mul, hs1, one_mul]
      exact c1

theorem twoErr_small (hu : 0 ≤ u) (hu2 : u ≤ 1 / 1000) (hw0 : 0 ≤ w) (hw : w ≤ 2 * u) (h : Rounding fl u) : twoErr u w ≤ 11 / 1000 := by
  unfold twoErr
  have h1 := hypErr_small hu2 hw
  have h2 := unitErr_small hu hu2
  have h3 := hypErr_nonneg h hw0 (by linarith : w < 1)
  have h4 := unitErr_nonneg h (by linarith : u < 1)
  have h5 : 1 + 3 / 2 * ((1 + u) ^ 2 - 1) ≤ 10031 / 10000 := by nlinarith
  have h6 : 0 ≤ 1 + 3 / 2 * ((1 + u) ^ 2 - 1) := by nlinarith
  have h7 := mul_le_mul h5 (by linarith : 1 + hypErr u w ≤ 10032 / 10000) (by linarith) (by norm_num)
  have h8 := mul_le_mul h7 (by linarith : 1 + unitErr u ≤ 10040 / 10000) (by linarith) (by norm_num)
  linarith

/-- A pair of elements of length about one. -/
theorem NearUnit.sq_bd {η c s : ℝ} (h : NearUnit η c s) (hη : η ≤ 11 / 1000) : c ^ 2 + s ^ 2 ≤ 103 / 100 ∧ 978 / 1000 ≤ c ^ 2 + s ^ 2 := by
  have h0 : 0 ≤ η := (abs_nonneg _).trans h
  refine ⟨(sq_le_of_nearUnit h).trans ((pow_le_pow_left₀ (by linarith) (by linarith : 1 + η ≤ 1011 / 1000) 2).trans (by norm_num)), ?_⟩
  unfold NearUnit at h
  have h1 : 989 / 1000 ≤ Real.sqrt (c ^ 2 + s ^ 2) := by linarith [(_root_.abs_le.1 h).1]
  rw [← Real.sq_sqrt (by positivity : 0 ≤ c ^ 2 + s ^ 2)]
  have := pow_le_pow_left₀ (by norm_num) h1 2
  norm_num at *
  linarith

/-- The scaled matrix after both rotations. -/
theorem scaled_off (h : Rounding fl u) (h1 : fl 1 = 1) (hu2 : u ≤ 1 / 1000) {ps pd : ℝ → ℝ → ℝ → ℝ → ℝ} (hps : IsProdSum fl ps) (hpd : IsProdDiff fl pd)
    {hyp : ℝ → ℝ → ℝ → ℝ} (hh : IsHypot w hyp) (hw0 : 0 ≤ w) (hw : w ≤ 2 * u) (zs : ZeroSigns ℝ) {b11 b12 b21 b22 : ℝ}
    (n11 : |b11| ≤ 1001 / 1000) (n12 : |b12| ≤ 1001 / 1000) (n21 : |b21| ≤ 1001 / 1000) (n22 : |b22| ≤ 1001 / 1000)
    (hB : 1 ≤ b11 ^ 2 + b12 ^ 2 + b21 ^ 2 + b22 ^ 2) {rq : RQ2 ℝ} (erq : decomposeRQ2 fl ps pd b11 b12 b21 b22 = rq) {v1 : ℝ × ℝ}
    (ev1 : diagonalizeTriangular fl ps hyp zs.neg rq.r11 rq.r12 rq.r22 = v1) {v : ℝ × ℝ}
    (ev : minimizeRotation fl (ps rq.cq v1.1 rq.sq v1.2) (ps (-rq.sq) v1.1 rq.cq v1.2) = v) (hV : v.1 ^ 2 + v.2 ^ 2 ≤ 103 / 100)
    (hV' : 978 / 1000 ≤ v.1 ^ 2 + v.2 ^ 2) :
    let us := scaledOrthogonal2 fl ps zs.one (ps b11 v.1 b12 v.2) (ps b11 (-v.2) b12 v.1) (ps b21 v.1 b22 v.2) (ps b21 (-v.2) b22 v.1)
    |us.1 * (b11 * -v.2 + b12 * v.1) + us.2.1 * (b21 * -v.2 + b22 * v.1)| ≤ 585 * u ∧
      |us.1 * (b21 * v.1 + b22 * v.2) - us.2.1 * (b11 * v.1 + b12 * v.2)| ≤ 585 * u := by
  have hu := h.u_nonneg
  have hE := rq_err h hu2 hps hpd n11 n12 n21 n22
  have hq := rq_unit h (by linarith : u < 1) hps pd b11 b12 b21 b22
  rw [erq] at hE hq
  have hoff := tri_off h hu2 hps hh hw0 hw zs.neg rq.r11 rq.r12 rq.r22
  have ht := tri_unit h (by linarith : u < 1) ps hh hw0 (by linarith) zs.neg rq.r11 rq.r12 rq.r22
  rw [ev1] at hoff ht
  clear erq ev1
  have hq2 : rq.cq ^ 2 + rq.sq ^ 2 ≤ 101 / 100 :=
    (sq_le_of_nearUnit hq).trans ((pow_le_pow_left₀ (by linarith [unitErr_nonneg h (by linarith : u < 1)]) (by linarith [unitErr_small hu hu2] : 1 + unitErr u ≤ 251 / 250) 2).trans (by norm_num))
  have ht2 : v1.1 ^ 2 + v1.2 ^ 2 ≤ 101 / 100 :=
    (sq_le_of_nearUnit ht).trans ((pow_le_pow_left₀ (by linarith [hypErr_nonneg h hw0 (by linarith : w < 1)]) (by linarith [hypErr_small hu2 hw] : 1 + hypErr u w ≤ 10032 / 10000) 2).trans (by norm_num))
  have hps2 : ∀ a b, |ps a v1.1 b v1.2 - (a * v1.1 + b * v1.2)| ≤ 201 / 100 * u * (|a| * |v1.1| + |b| * |v1.2|) := fun a b => ps_small h hu2 hps _ _ _ _
  have hcs1 : |rq.cq| * |v1.1| + |rq.sq| * |v1.2| ≤ 101 / 100 := by
    rw [← sq_abs rq.cq, ← sq_abs rq.sq] at hq2
    rw [← sq_abs v1.1, ← sq_abs v1.2] at ht2
    nlinarith [sq_nonneg (|rq.cq| - |v1.1|), sq_nonneg (|rq.sq| - |v1.2|)]
  have hcs2 : |rq.sq| * |v1.1| + |rq.cq| * |v1.2| ≤ 101 / 100 := by
    rw [← sq_abs rq.cq, ← sq_abs rq.sq] at hq2
    rw [← sq_abs v1.1, ← sq_abs v1.2] at ht2
    nlinarith [sq_nonneg (|rq.sq| - |v1.1|), sq_nonneg (|rq.cq| - |v1.2|)]
  have hcv : |ps rq.cq v1.1 rq.sq v1.2 - (rq.cq * v1.1 + rq.sq * v1.2)| ≤ 21 / 10 * u := by
    have := mul_le_mul_of_nonneg_left hcs1 (by positivity : 0 ≤ 201 / 100 * u)
    linarith [hps2 rq.cq rq.sq]
  have hsv : |ps (-rq.sq) v1.1 rq.cq v1.2 - (-rq.sq * v1.1 + rq.cq * v1.2)| ≤ 21 / 10 * u := by
    have := mul_le_mul_of_nonneg_left hcs2 (by positivity : 0 ≤ 201 / 100 * u)
    have := hps2 (-rq.sq) rq.cq
    rw [abs_neg] at this
    linarith
  have f1 := ps_idem h hps rq.cq v1.1 rq.sq v1.2
  have f2 := ps_idem h hps (-rq.sq) v1.1 rq.cq v1.2
  clear hps2
  generalize ps rq.cq v1.1 rq.sq v1.2 = cv at *
  generalize ps (-rq.sq) v1.1 rq.cq v1.2 = sv at *
  have hne : cv ≠ 0 ∨ sv ≠ 0 := by
    by_contra h0
    simp only [not_or, not_not] at h0
    rw [h0.1, h0.2] at ev
    unfold minimizeRotation at ev
    simp [fl_zero h] at ev
    rw [← ev] at hV'
    norm_num at hV'
  obtain ⟨eM, -⟩ := minimizeRotation_eq h h1 f1 f2 hne
  have hv : cv ^ 2 + sv ^ 2 ≤ 103 / 100 := by rw [← eM, ev]; exact hV
  have hR := right_off hu hu2 n11 n12 n21 n22 hE (by linarith) ht2 hoff hcv hsv hv
  rw [← offDiag_minimize h h1 _ _ f1 f2 hne, ev] at hR
  clear hcv hsv f1 f2 hne eM hv hcs1 hcs2 hq2 ht2 hoff ht hq hE
  have hVs : (-v.2) ^ 2 + v.1 ^ 2 ≤ 103 / 100 := by linarith [neg_sq v.2]
  have ex : ∀ a b c s, |a| ≤ 1001 / 1000 → |b| ≤ 1001 / 1000 → c ^ 2 + s ^ 2 ≤ 103 / 100 → |ps a c b s - (a * c + b * s)| ≤ 3 * u := by
    intro a b c s ha hb hcs
    have := mul_le_mul_of_nonneg_left (lin_bd ha hb hcs) (by positivity : 0 ≤ 201 / 100 * u)
    linarith [ps_small h hu2 hps a c b s]
  have nx : ∀ {a b c s : ℝ}, |a| ≤ 1001 / 1000 → |b| ≤ 1001 / 1000 → c ^ 2 + s ^ 2 ≤ 103 / 100 → |a * c + b * s| ≤ 1442 / 1000 := by
    intro a b c s ha hb hcs
    have := lin_abs ha hb hcs
    linarith
  have hxy : |(b11 * v.1 + b12 * v.2) * (b11 * -v.2 + b12 * v.1) + (b21 * v.1 + b22 * v.2) * (b21 * -v.2 + b22 * v.1)| ≤ 270 * u := by
    convert hR using 2
    unfold offDiag
    ring
  have hF : 98 / 100 - 2 / 1000 ≤ (b11 * v.1 + b12 * v.2) ^ 2 + (b21 * v.1 + b22 * v.2) ^ 2 + (b11 * -v.2 + b12 * v.1) ^ 2 + (b21 * -v.2 + b22 * v.1) ^ 2 := by
    have e : (b11 * v.1 + b12 * v.2) ^ 2 + (b21 * v.1 + b22 * v.2) ^ 2 + (b11 * -v.2 + b12 * v.1) ^ 2 + (b21 * -v.2 + b22 * v.1) ^ 2 =
      (b11 ^ 2 + b12 ^ 2 + b21 ^ 2 + b22 ^ 2) * (v.1 ^ 2 + v.2 ^ 2) := by ring
    rw [e]
    have := mul_le_mul hB hV' (by norm_num) (by positivity)
    linarith
  exact left_off h hu2 hps zs (ex b11 b12 v.1 v.2 n11 n12 hV) (ex b21 b22 v.1 v.2 n21 n22 hV) (ex b11 b12 (-v.2) v.1 n11 n12 hVs)
    (ex b21 b22 (-v.2) v.1 n21 n22 hVs) (nx n11 n12 hV) (nx n21 n22 hV) (nx n11 n12 hVs) (nx n21 n22 hVs) hxy hF

/-- Elements beside the diagonal of a 2x2 matrix after both rotations: they are small compared with its largest element. -/
theorem svd2_off (h : Rounding fl u) (h1 : fl 1 = 1) (hu2 : u ≤ 1 / 1000) {ps pd : ℝ → ℝ → ℝ → ℝ → ℝ} (hps : IsProdSum fl ps) (hpd : IsProdDiff fl pd)
    {hyp : ℝ → ℝ → ℝ → ℝ} (hh : IsHypot w hyp) (hw0 : 0 ≤ w) (hw : w ≤ 2 * u) (zs : ZeroSigns ℝ) (a11 a12 a21 a22 : ℝ) :
    let d := decomposeSVD2 fl ps pd hyp zs a11 a12 a21 a22
    |d.cu * (a11 * d.sv + a12 * d.cv) + d.su * (a21 * d.sv + a22 * d.cv)| ≤ 588 * u * max (max |a11| |a12|) (max |a21| |a22|) ∧
      |d.cu * (a21 * d.cv - a22 * d.sv) - d.su * (a11 * d.cv - a12 * d.sv)| ≤ 588 * u * max (max |a11| |a12|) (max |a21| |a22|) := by
  have hu := h.u_nonneg
  have hη := twoErr_small hu hu2 hw0 hw h
  have hunit := svd2_unit h h1 (by linarith : u < 1) hps pd hh hw0 (by linarith) (by linarith) zs a11 a12 a21 a22
  obtain ⟨hU, -⟩ := hunit.left.sq_bd hη
  obtain ⟨hV, hV'⟩ := hunit.right.sq_bd hη
  clear hunit
  unfold decomposeSVD2 at *
  simp only at *
  by_cases hsc : max (max |a11| |a12|) (max |a21| |a22|) = 0
  · rw [if_pos hsc, hsc]
    have g : ∀ a, |a| ≤ max (max |a11| |a12|) (max |a21| |a22|) → a = 0 := fun a ha => by rw [hsc] at ha; exact abs_nonpos_iff.1 ha
    have e1 := g a11 ((le_max_left _ _).trans (le_max_left _ _))
    have e2 := g a12 ((le_max_right _ _).trans (le_max_left _ _))
    have e3 := g a21 ((le_max_left _ _).trans (le_max_right _ _))
    have e4 := g a22 ((le_max_right _ _).trans (le_max_right _ _))
    simp [e1, e2, e3, e4]
  rw [if_neg hsc] at *
  have hsc0 : 0 < max (max |a11| |a12|) (max |a21| |a22|) :=
    lt_of_le_of_ne ((abs_nonneg a11).trans ((le_max_left _ _).trans (le_max_left _ _))) (Ne.symm hsc)
  have m1 : |a11| ≤ max (max |a11| |a12|) (max |a21| |a22|) := (le_max_left _ _).trans (le_max_left _ _)
  have m2 : |a12| ≤ max (max |a11| |a12|) (max |a21| |a22|) := (le_max_right _ _).trans (le_max_left _ _)
  have m3 : |a21| ≤ max (max |a11| |a12|) (max |a21| |a22|) := (le_max_left _ _).trans (le_max_right _ _)
  have m4 : |a22| ≤ max (max |a11| |a12|) (max |a21| |a22|) := (le_max_right _ _).trans (le_max_right _ _)
  have hmax : max (max |a11| |a12|) (max |a21| |a22|) = |a11| ∨ max (max |a11| |a12|) (max |a21| |a22|) = |a12| ∨
      max (max |a11| |a12|) (max |a21| |a22|) = |a21| ∨ max (max |a11| |a12|) (max |a21| |a22|) = |a22| := by
    rcases max_choice (max |a11| |a12|) (max |a21| |a22|) with e | e <;> rw [e]
    · rcases max_choice |a11| |a12| with e' | e' <;> rw [e'] <;> simp
    · rcases max_choice |a21| |a22| with e' | e' <;> rw [e'] <;> simp
  set sc := max (max |a11| |a12|) (max |a21| |a22|)
  clear_value sc
  have eb : ∀ a, |a| ≤ sc → |fl (a / sc) - a / sc| ≤ u ∧ |fl (a / sc)| ≤ 1001 / 1000 := by
    intro a ha
    have h2 : |a / sc| ≤ 1 := by rw [abs_div, abs_of_pos hsc0, div_le_one hsc0]; exact ha
    have h3 := h.err (a / sc)
    have h4 := mul_le_mul_of_nonneg_left h2 hu
    have t := abs_add_le (fl (a / sc) - a / sc) (a / sc)
    rw [sub_add_cancel] at t
    exact ⟨by linarith, by linarith⟩
  obtain ⟨d11, n11⟩ := eb a11 m1
  obtain ⟨d12, n12⟩ := eb a12 m2
  obtain ⟨d21, n21⟩ := eb a21 m3
  obtain ⟨d22, n22⟩ := eb a22 m4
  have hone : ∀ a, sc = |a| → fl (a / sc) ^ 2 = 1 := by
    intro a ha
    rcases abs_choice a with e | e
    · have : a / sc = 1 := by rw [ha, e, div_self]; rintro rfl; simp at ha; exact hsc ha
      rw [this, h1]; norm_num
    · have : a / sc = -1 := by
        have h0 : a ≠ 0 := by rintro rfl; simp at ha; exact hsc ha
        rw [ha, e, div_neg, div_self h0]
      rw [this, h.odd, h1]; norm_num
  have hB : 1 ≤ fl (a11 / sc) ^ 2 + fl (a12 / sc) ^ 2 + fl (a21 / sc) ^ 2 + fl (a22 / sc) ^ 2 := by
    have z1 := sq_nonneg (fl (a11 / sc)); have z2 := sq_nonneg (fl (a12 / sc)); have z3 := sq_nonneg (fl (a21 / sc)); have z4 := sq_nonneg (fl (a22 / sc))
    rcases hmax with e | e | e | e <;> have := hone _ e <;> linarith
  generalize hb11 : fl (a11 / sc) = b11 at *
  generalize hb12 : fl (a12 / sc) = b12 at *
  generalize hb21 : fl (a21 / sc) = b21 at *
  generalize hb22 : fl (a22 / sc) = b22 at *
  clear hone eb
  generalize erq : decomposeRQ2 fl ps pd b11 b12 b21 b22 = rq at *
  generalize ev1 : diagonalizeTriangular fl ps hyp zs.neg rq.r11 rq.r12 rq.r22 = v1 at *
  generalize ev : minimizeRotation fl (ps rq.cq v1.1 rq.sq v1.2) (ps (-rq.sq) v1.1 rq.cq v1.2) = v at *
  rw [neg_sq] at hV hV'
  obtain ⟨c1, c2⟩ := scaled_off h h1 hu2 hps hpd hh hw0 hw zs n11 n12 n21 n22 hB erq ev1 ev hV hV'
  have hVs : (-v.2) ^ 2 + v.1 ^ 2 ≤ 103 / 100 := by linarith [neg_sq v.2]
  clear erq ev1 ev hB
  generalize scaledOrthogonal2 fl ps zs.one (ps b11 v.1 b12 v.2) (ps b11 (-v.2) b12 v.1) (ps b21 v.1 b22 v.2) (ps b21 (-v.2) b22 v.1) = us at *
  have key : ∀ {e11 e12 e21 e22 c s c' s' : ℝ}, |e11| ≤ u → |e12| ≤ u → |e21| ≤ u → |e22| ≤ u → c ^ 2 + s ^ 2 ≤ 103 / 100 → c' ^ 2 + s' ^ 2 ≤ 103 / 100 →
      |(e11 * c + e12 * s) * c' + (e21 * c + e22 * s) * s'| ≤ 3 * u := by
    intro e11 e12 e21 e22 c s c' s' h11 h12 h21 h22 hc hc'
    have := lin_abs (lin_abs h11 h12 hc) (lin_abs h21 h22 hc) hc'
    linarith
  have hU' : (-us.2.1) ^ 2 + us.1 ^ 2 ≤ 103 / 100 := by linarith [neg_sq us.2.1]
  have k1 := key d11 d12 d21 d22 hVs hU
  have k2 := key d11 d12 d21 d22 hV hU'
  constructor
  · have e : us.1 * (a11 * -v.2 + a12 * v.1) + us.2.1 * (a21 * -v.2 + a22 * v.1) = sc * ((us.1 * (b11 * -v.2 + b12 * v.1) + us.2.1 * (b21 * -v.2 + b22 * v.1)) -
        (((b11 - a11 / sc) * -v.2 + (b12 - a12 / sc) * v.1) * us.1 + ((b21 - a21 / sc) * -v.2 + (b22 - a22 / sc) * v.1) * us.2.1)) := by
      field_simp; ring
    rw [e, abs_mul, abs_of_pos hsc0, mul_comm]
    refine mul_le_mul_of_nonneg_right ((abs_sub _ _).trans ?_) hsc0.le
    linarith
  · have e : us.1 * (a21 * v.1 - a22 * -v.2) - us.2.1 * (a11 * v.1 - a12 * -v.2) = sc * ((us.1 * (b21 * v.1 + b22 * v.2) - us.2.1 * (b11 * v.1 + b12 * v.2)) -
        (((b11 - a11 / sc) * v.1 + (b12 - a12 / sc) * v.2) * -us.2.1 + ((b21 - a21 / sc) * v.1 + (b22 - a22 / sc) * v.2) * us.1)) := by
      field_simp; ring
    rw [e, abs_mul, abs_of_pos hsc0, mul_comm]
    refine mul_le_mul_of_nonneg_right ((abs_sub _ _).trans ?_) hsc0.le
    linarith

theorem TwoErr.init {n : ℕ} (h : Rounding fl u) (ε : ℝ) (A : Matrix (Fin r) (Fin (n + 1)) ℝ) (sc : ℝ) :
    TwoErr fl ε (twoInit fl A sc).X (n + 1) (twoInit fl A sc) 0 1 1 := by
  refine ⟨by simp, by simp, fun i => by simp [twoInit, norm2_zero], fun j => by simp [twoInit, norm2_zero], by simp [frob], ?_, ?_, ?_, ?_⟩
  · intro i j hj
    simp only [twoInit, Matrix.of_apply]
    rw [dif_neg (not_lt.2 hj)]
  · intro i j _
    simp [twoInit, Matrix.one_apply]
  · intro i j _
    simp [Matrix.one_apply]
  · intro i j
    unfold twoInit
    simp only [Matrix.of_apply]
    split
    · exact h.idem _
    · exact fl_zero h

end Mathter.Fl
