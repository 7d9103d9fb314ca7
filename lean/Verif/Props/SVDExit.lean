import Verif.Props.SVD
import Mathlib.Tactic.LinearCombination

/-!
# The end of the two-sided Jacobi loop (C40)

The loop ends as soon as the largest off-diagonal element met during a sweep is not smaller than that of the sweep before. That can happen
although the matrix is far from diagonal.
-/

namespace Mathter.Props
open Mathter

/-- One rotation of the two-sided algorithm of a real matrix, element by element. -/
private theorem twoRotate_real {r : ℕ} (zs : ZeroSigns ℝ) (p q : Fin r) (hpq : p ≠ q) (s : TwoState ℝ r) :
    ∃ g00 g01 g10 g11 c t a b : ℝ, g00 ^ 2 + g10 ^ 2 = 1 ∧ g01 ^ 2 + g11 ^ 2 = 1 ∧ g00 * g01 + g10 * g11 = 0 ∧ g00 ^ 2 + g01 ^ 2 = 1 ∧
      c ^ 2 + t ^ 2 = 1 ∧ t ^ 2 ≤ c ^ 2 ∧ 0 ≤ c ∧ 0 ≤ a ∧ 0 ≤ b ∧
      (∀ j, j ≠ p → j ≠ q → (twoRotate zs p q s).X p j = g00 * s.X p j + g10 * s.X q j ∧ (twoRotate zs p q s).X q j = g01 * s.X p j + g11 * s.X q j) ∧
      (∀ i, i ≠ p → i ≠ q → (twoRotate zs p q s).X i p = s.X i p * c - s.X i q * t ∧ (twoRotate zs p q s).X i q = s.X i p * t + s.X i q * c) ∧
      (∀ i j, i ≠ p → i ≠ q → j ≠ p → j ≠ q → (twoRotate zs p q s).X i j = s.X i j) ∧
      (twoRotate zs p q s).X p p = a ∧ (twoRotate zs p q s).X p q = 0 ∧ (twoRotate zs p q s).X q p = 0 ∧ (twoRotate zs p q s).X q q = b ∧
      g00 * s.X p p + g10 * s.X q p = a * c ∧ g00 * s.X p q + g10 * s.X q q = -(a * t) ∧
      g01 * s.X p p + g11 * s.X q p = b * t ∧ g01 * s.X p q + g11 * s.X q q = b * c := by
  have hk := C41_svd zs (block2 s.X p q)
  simp only at hk
  have e00 : block2 s.X p q 0 0 = s.X p p := rfl
  have e01 : block2 s.X p q 0 1 = s.X p q := rfl
  have e10 : block2 s.X p q 1 0 = s.X q p := rfl
  have e11 : block2 s.X p q 1 1 = s.X q q := rfl
  rw [e00, e01, e10, e11] at hk
  unfold twoRotate
  generalize decomposeSVD2 zs (s.X p p) (s.X p q) (s.X q p) (s.X q q) = d at *
  obtain ⟨h1, h2, h3, h4, h5, _, h7, h8⟩ := hk
  obtain ⟨hd, hu⟩ := rot2_norm_det _ _ _ h1
  obtain ⟨_, hv⟩ := rot2_norm_det _ _ _ h2
  rw [rot_diag_rot] at h8
  have b00 := congrFun (congrFun h8 0) 0
  have b01 := congrFun (congrFun h8 0) 1
  have b10 := congrFun (congrFun h8 1) 0
  have b11 := congrFun (congrFun h8 1) 1
  rw [e00] at b00
  rw [e01] at b01
  rw [e10] at b10
  rw [e11] at b11
  simp at b00 b01 b10 b11 hu hv h5 h7
  have hd2 : d.det * d.det = 1 := by
    rw [Real.norm_eq_abs] at hd
    rw [← abs_mul_abs_self, hd]; norm_num
  have h5' : d.sv ^ 2 ≤ d.cv ^ 2 := sq_le_sq.2 h5
  clear e00 e01 e10 e11 h8 h1 h2
  obtain ⟨cu, su, a, b, cv, sv, δ⟩ := d
  simp only at *
  refine ⟨cu, -(δ * su), su, δ * cu, cv, sv, a, b, by linarith, ?_, by ring, ?_, by linarith, h5', h7, h3, h4, ?_, ?_, ?_, ?_, ?_, ?_, ?_,
    ?_, ?_, ?_, ?_⟩
  · linear_combination (su * su + cu * cu) * hd2 + hu
  · linear_combination su * su * hd2 + hu
  · intro j hp hq
    simp [givensRight, givensLeft, hp, hq, hpq]
    constructor
    · linear_combination su * s.X q j * hd2
    · ring
  · intro i hp hq
    simp [givensRight, givensLeft, hp, hq, hpq]
    constructor <;> ring
  · intro i j hp hq hp' hq'
    simp [givensRight, givensLeft, hp, hq, hp', hq']
  all_goals
    try simp [givensRight, givensLeft, hpq]
    try rw [← b00]
    try rw [← b01]
    try rw [← b10]
    try rw [← b11]
  · linear_combination su * (su * a * (cv * cv + sv * sv)) * hd2 + a * (cv * cv + sv * sv) * hu + a * hv
  · linear_combination (δ * su * cu * b * (cv * cv + sv * sv)) * hd2
  · ring
  · linear_combination b * (su * su + cu * cu) * (cv * cv + sv * sv) * hd2 + b * (cv * cv + sv * sv) * hu + b * hv
  · linear_combination a * cv * hu
  · linear_combination -a * sv * hu
  · linear_combination b * sv * (su * su + cu * cu) * hd2 + b * sv * hu
  · linear_combination b * cv * (su * su + cu * cu) * hd2 + b * cv * hu

/-- The three steps of a sweep of a 3x3 matrix. -/
private theorem twoSweep_three (tol : ℝ) (zs : ℕ → Fin 3 → Fin 3 → ZeroSigns ℝ) (t : ℕ) (s : TwoState ℝ 3) :
    twoSweep tol zs t s = twoStep tol (zs t 1 2) 1 2 (twoStep tol (zs t 0 2) 0 2 (twoStep tol (zs t 0 1) 0 1 (s, 0))) := by
  unfold twoSweep
  rw [forUp_step (by omega : 0 < 3), forUp_step (by omega : 0 + 1 < 3), forUp_step (by omega : 0 + 1 + 1 < 3), forUp_ge (lo := 0 + 1 + 1 + 1) (by omega)]
  simp only
  rw [forUp_step (n := 3) (lo := 0 + 1) (by omega), forUp_step (n := 3) (lo := 0 + 1 + 1) (by omega), forUp_ge (n := 3) (lo := 0 + 1 + 1 + 1) (by omega),
    forUp_ge (n := 3) (lo := 0 + 1 + 1 + 1) (by omega), forUp_step (n := 3) (lo := 0 + 1 + 1) (by omega), forUp_ge (n := 3) (lo := 0 + 1 + 1 + 1) (by omega)]
  rfl

private theorem mat3_ext {M : Matrix (Fin 3) (Fin 3) ℝ} {a b c d e f g h i : ℝ} (h00 : M 0 0 = a) (h01 : M 0 1 = b) (h02 : M 0 2 = c)
    (h10 : M 1 0 = d) (h11 : M 1 1 = e) (h12 : M 1 2 = f) (h20 : M 2 0 = g) (h21 : M 2 1 = h) (h22 : M 2 2 = i) :
    M = !![a, b, c; d, e, f; g, h, i] := by
  ext x y
  fin_cases x <;> fin_cases y <;> simpa

private theorem one_of_sq {x : ℝ} (h : x ^ 2 = 1) (h0 : 0 ≤ x) : x = 1 := by nlinarith

private theorem pos_of_rot {c w : ℝ} (h : c ^ 2 + w ^ 2 = 1) (h1 : w ^ 2 ≤ c ^ 2) (h0 : 0 ≤ c) : 0 < c := by nlinarith

/-- The matrix of the counterexample after the first sweep. -/
private theorem first_sweep (tol : ℝ) (h0 : 0 ≤ tol) (h1 : tol < 1 / 10) (zs : ℕ → Fin 3 → Fin 3 → ZeroSigns ℝ) (t : ℕ) (s : TwoState ℝ 3)
    (hs : s.X = !![0, 0, 0; 0, 4 / 5, 3 / 5; 3 / 5, 1, 0]) :
    (twoSweep tol zs t s).2 = 3 / 5 ∧ (twoSweep tol zs t s).1.X = !![3 / 5, 4 / 5, -(3 / 5); 0, 1, 0; 0, 0, 0] := by
  rw [twoSweep_three]
  have hA : twoStep tol (zs t 0 1) 0 1 (s, 0) = (s, 0) := by
    unfold twoStep
    simp [hs, scaleElt, h0]
  rw [hA]
  have hB : (twoStep tol (zs t 0 2) 0 2 (s, 0)).2 = 3 / 5 ∧
      (twoStep tol (zs t 0 2) 0 2 (s, 0)).1.X = !![3 / 5, 1, 0; 0, 4 / 5, 3 / 5; 0, 0, 0] := by
    have he : max (scaleElt (s.X 0 2)) (scaleElt (s.X 2 0)) = 3 / 5 := by
      simp [hs, scaleElt]; norm_num [abs_of_pos]
    unfold twoStep
    simp only [he]
    rw [if_pos (by linarith)]
    refine ⟨by norm_num, ?_⟩
    obtain ⟨g00, g01, g10, g11, c, w, a, b, r1, r2, r3, r4, r5, r6, r7, r8, r9, k1, k2, k3, x1, x2, x3, x4, z1, z2, z3, z4⟩ :=
      twoRotate_real (zs t 0 2) 0 2 (by decide) s
    have k1 := k1 1 (by decide) (by decide)
    have k2 := k2 1 (by decide) (by decide)
    have k3 := k3 1 1 (by decide) (by decide) (by decide) (by decide)
    simp only
    generalize (twoRotate (zs t 0 2) 0 2 s).X = Y at *
    simp [hs] at k1 k2 k3 z1 z2 z3 z4
    -- the block is [0 0; 3/5 0]
    have hc := pos_of_rot r5 r6 r7
    have hb0 : b = 0 := z4.resolve_right hc.ne'
    have hg11 : g11 = 0 := by rw [hb0] at z3; linarith
    have hg01 : g01 ^ 2 = 1 := by rw [hg11] at r2; linarith
    have hg00 : g00 = 0 := by
      have : g00 ^ 2 = 0 := by linarith
      exact pow_eq_zero_iff (two_ne_zero) |>.1 this
    have hg10 : g10 ^ 2 = 1 := by rw [hg00] at r1; linarith
    have hw : w = 0 := by
      rcases z2 with h | h
      · exfalso
        rw [h] at z1
        have : g10 = 0 := by linarith
        rw [this] at hg10; norm_num at hg10
      · exact h
    have hc1 : c = 1 := one_of_sq (by rw [hw] at r5; linarith) r7
    have hg : g10 = 1 := one_of_sq hg10 (by rw [hc1] at z1; linarith)
    refine mat3_ext ?_ ?_ x2 ?_ k3 ?_ x3 ?_ ?_
    · rw [x1]; rw [hc1, hg] at z1; linarith
    · rw [k1.1, hg]
    · rw [k2.1, hw]; norm_num
    · rw [k2.2, hc1]; norm_num
    · rw [k1.2, hg11]
    · rw [x4, hb0]
  generalize twoStep tol (zs t 0 2) 0 2 (s, 0) = s' at hB
  obtain ⟨hB1, hB⟩ := hB
  have he : max (scaleElt (s'.1.X 1 2)) (scaleElt (s'.1.X 2 1)) = 3 / 5 := by
    simp [hB, scaleElt]; norm_num [abs_of_pos]
  unfold twoStep
  simp only [he]
  rw [if_pos (by linarith)]
  refine ⟨by rw [hB1]; norm_num, ?_⟩
  obtain ⟨g00, g01, g10, g11, c, w, a, b, r1, r2, r3, r4, r5, r6, r7, r8, r9, k1, k2, k3, x1, x2, x3, x4, z1, z2, z3, z4⟩ :=
    twoRotate_real (zs t 1 2) 1 2 (by decide) s'.1
  have k1 := k1 0 (by decide) (by decide)
  have k2 := k2 0 (by decide) (by decide)
  have k3 := k3 0 0 (by decide) (by decide) (by decide) (by decide)
  simp only
  generalize (twoRotate (zs t 1 2) 1 2 s'.1).X = Y at *
  simp [hB] at k1 k2 k3 z1 z2 z3 z4
  -- the block is [4/5 3/5; 0 0]
  have hc := pos_of_rot r5 r6 r7
  have e1 : g01 = 0 := by
    by_contra hne
    have e2 : b * (3 * w - 4 * c) = 0 := by linear_combination -3 * z3 + 4 * z4
    rcases mul_eq_zero.1 e2 with h | h
    · rw [h] at z3; apply hne; linarith
    · have hw : w = 4 / 3 * c := by linarith
      have e3 := mul_pos hc hc
      have e4 : w ^ 2 = 16 / 9 * (c * c) := by rw [hw]; ring
      have e5 : c ^ 2 = c * c := by ring
      linarith
  have e2 : g00 ^ 2 = 1 := by rw [e1] at r4; linarith
  have e3 : b = 0 := by
    rw [e1] at z4
    have : b * c = 0 := by linarith
    exact (mul_eq_zero.1 this).resolve_right hc.ne'
  have e4 : a = 1 := by
    have : a ^ 2 = 1 := by linear_combination -a ^ 2 * r5 - (g00 * (4 / 5) + a * c) * z1 - (g00 * (3 / 5) - a * w) * z2 + e2
    exact one_of_sq this r8
  have e5 : g00 = 1 := by
    rw [e4] at z1
    exact one_of_sq e2 (by linarith)
  rw [e4, e5] at z1 z2
  refine mat3_ext k3 ?_ ?_ ?_ ?_ x2 ?_ x3 ?_
  · rw [k2.1]; linarith
  · rw [k2.2]; linarith
  · rw [k1.1]
  · rw [x1, e4]
  · rw [k1.2]
  · rw [x4, e3]

/-- The second sweep of the counterexample: it meets an element that is larger than any met in the first sweep, and its result is not diagonal. -/
private theorem second_sweep (tol : ℝ) (h1 : tol < 1 / 10) (zs : ℕ → Fin 3 → Fin 3 → ZeroSigns ℝ) (t : ℕ) (s : TwoState ℝ 3)
    (hs : s.X = !![3 / 5, 4 / 5, -(3 / 5); 0, 1, 0; 0, 0, 0]) :
    3 / 5 ≤ (twoSweep tol zs t s).2 ∧ ((twoSweep tol zs t s).1.X 1 0 ≠ 0 ∨ (twoSweep tol zs t s).1.X 2 0 ≠ 0) := by
  rw [twoSweep_three]
  have hA : (twoStep tol (zs t 0 1) 0 1 (s, 0)).2 = 4 / 5 ∧ ∃ a b g h : ℝ, a ≠ 0 ∧ 1 / 100 < g ^ 2 ∧ h ≠ 0 ∧
      (twoStep tol (zs t 0 1) 0 1 (s, 0)).1.X = !![a, 0, g; 0, b, h; 0, 0, 0] := by
    have he : max (scaleElt (s.X 0 1)) (scaleElt (s.X 1 0)) = 4 / 5 := by
      simp [hs, scaleElt]; norm_num [abs_of_pos]
    unfold twoStep
    simp only [he]
    rw [if_pos (by linarith)]
    refine ⟨by norm_num, ?_⟩
    obtain ⟨g00, g01, g10, g11, c, w, a, b, r1, r2, r3, r4, r5, r6, r7, r8, r9, k1, k2, k3, x1, x2, x3, x4, z1, z2, z3, z4⟩ :=
      twoRotate_real (zs t 0 1) 0 1 (by decide) s
    have k1 := k1 2 (by decide) (by decide)
    have k2 := k2 2 (by decide) (by decide)
    have k3 := k3 2 2 (by decide) (by decide) (by decide) (by decide)
    simp only
    generalize (twoRotate (zs t 0 1) 0 1 s).X = Y at *
    simp [hs] at k1 k2 k3 z1 z2 z3 z4
    have hc := pos_of_rot r5 r6 r7
    have ha : a ≠ 0 := by
      intro h
      rw [h] at z1 z2
      have e1 : g00 = 0 := by linarith
      rw [e1] at z2 r1
      have e2 : g10 = 0 := by linarith
      rw [e2] at r1; norm_num at r1
    have hg : g00 ≠ 0 := by
      intro h
      rw [h, zero_mul] at z1
      rcases mul_eq_zero.1 z1.symm with h | h
      · exact ha h
      · exact hc.ne' h
    have e1 : g00 * g11 + g10 * g01 = 0 := by
      linear_combination (5 / 4) * ((b * w) * z1 + (g00 * (3 / 5)) * z3 + (b * c) * z2 + (g00 * (4 / 5) + g10) * z4 - r3)
    have e2 : g00 * (g01 ^ 2 - g11 ^ 2) = 0 := by linear_combination g01 * r3 - g11 * e1
    have e3 : g01 ^ 2 = g11 ^ 2 := by linarith [(mul_eq_zero.1 e2).resolve_left hg]
    have e4 : g01 ^ 2 = 1 / 2 := by linarith
    have e5 : g00 ^ 2 = 1 / 2 := by linarith
    refine ⟨a, b, -(3 / 5) * g00, -(3 / 5) * g01, ha, by nlinarith, ?_, ?_⟩
    · intro h
      have : g01 = 0 := by linarith
      rw [this] at e4; norm_num at e4
    · refine mat3_ext x1 x2 ?_ x3 x4 ?_ ?_ ?_ k3
      · rw [k1.1]; ring
      · rw [k1.2]; ring
      · rw [k2.1]
      · rw [k2.2]
  generalize twoStep tol (zs t 0 1) 0 1 (s, 0) = s1 at hA
  obtain ⟨hA1, a, b, g, h, ha, hg, hh, hA⟩ := hA
  have hB : 4 / 5 ≤ (twoStep tol (zs t 0 2) 0 2 s1).2 ∧ (twoStep tol (zs t 0 2) 0 2 s1).1.X 1 0 ≠ 0 ∧
      (twoStep tol (zs t 0 2) 0 2 s1).1.X 2 0 = 0 := by
    have he : max (scaleElt (s1.1.X 0 2)) (scaleElt (s1.1.X 2 0)) = |g| := by
      simp [hA, scaleElt]
    unfold twoStep
    simp only [he]
    rw [if_pos (by
      have : 1 / 10 < |g| := by
        rw [← abs_of_pos (by norm_num : (0 : ℝ) < 1 / 10)]
        exact sq_lt_sq.1 (by norm_num; linarith)
      linarith)]
    refine ⟨by rw [hA1]; exact le_max_left _ _, ?_⟩
    obtain ⟨g00, g01, g10, g11, c, w, a', b', r1, r2, r3, r4, r5, r6, r7, r8, r9, k1, k2, k3, x1, x2, x3, x4, z1, z2, z3, z4⟩ :=
      twoRotate_real (zs t 0 2) 0 2 (by decide) s1.1
    have k2 := k2 1 (by decide) (by decide)
    simp only
    generalize (twoRotate (zs t 0 2) 0 2 s1.1).X = Y at *
    simp [hA] at k2 z1 z2 z3 z4
    refine ⟨?_, x3⟩
    rw [k2.1]
    intro hw
    have hw : w = 0 := by
      rcases mul_eq_zero.1 (neg_eq_zero.1 hw) with e | e
      · exact absurd e hh
      · exact e
    rw [hw] at z2 z3
    have hg0 : g ≠ 0 := by rintro rfl; norm_num at hg
    have e1 : g00 = 0 := (mul_eq_zero.1 (show g00 * g = 0 by linarith)).resolve_right hg0
    have e2 : g01 = 0 := (mul_eq_zero.1 (show g01 * a = 0 by linarith)).resolve_right ha
    rw [e1, e2] at r4; norm_num at r4
  generalize twoStep tol (zs t 0 2) 0 2 s1 = s2 at hB
  obtain ⟨hB1, hB2, hB3⟩ := hB
  unfold twoStep
  simp only
  split
  · refine ⟨by linarith [le_max_left s2.2 (max (scaleElt (s2.1.X 1 2)) (scaleElt (s2.1.X 2 1)))], ?_⟩
    obtain ⟨g00, g01, g10, g11, c, w, a', b', r1, r2, r3, r4, r5, r6, r7, r8, r9, k1, k2, k3, x1, x2, x3, x4, z1, z2, z3, z4⟩ :=
      twoRotate_real (zs t 1 2) 1 2 (by decide) s2.1
    have k1 := k1 0 (by decide) (by decide)
    simp only
    rw [k1.1, k1.2, hB3]
    by_contra hcon
    push Not at hcon
    have e1 : g00 = 0 := (mul_eq_zero.1 (show g00 * s2.1.X 1 0 = 0 by linarith [hcon.1])).resolve_right hB2
    have e2 : g01 = 0 := (mul_eq_zero.1 (show g01 * s2.1.X 1 0 = 0 by linarith [hcon.2])).resolve_right hB2
    rw [e1, e2] at r4; norm_num at r4
  · exact ⟨by linarith, Or.inl hB2⟩

/-- C40 is violated: the two-sided decomposition of the real matrix `[0 0 0; 0 4 3; 3 5 0]` ends after two sweeps, because an element met in the
second sweep is larger than all that were met in the first; the matrix is not diagonal by then and the product of the factors is not the matrix. -/
theorem C40_early_exit_violated (tol big big' : ℝ) (h0 : 0 ≤ tol) (h1 : tol < 1 / 10) (h2 : 1 < big') (h3 : big' < big)
    (zs : ℕ → Fin 3 → Fin 3 → ZeroSigns ℝ) (fuel : ℕ) :
    ∃ d : SVD ℝ 3 3 3, svdTwoSided tol big big' zs le_rfl (fuel + 3) !![0, 0, 0; 0, 4, 3; 3, 5, 0] = some d ∧
      d.U * Matrix.diagonal d.S * d.V ≠ !![0, 0, 0; 0, 4, 3; 3, 5, 0] := by
  set A : Matrix (Fin 3) (Fin 3) ℝ := !![0, 0, 0; 0, 4, 3; 3, 5, 0] with hA
  have hrow : ∀ i, scaleElements (A i) ≤ 5 := by
    intro i
    unfold scaleElements
    refine Finset.sup'_le _ _ fun j _ => ?_
    rw [hA]
    fin_cases i <;> fin_cases j <;> norm_num
  have hsc : matScaleElements A = 5 := by
    apply le_antisymm
    · have := forUp_inv (n := 3) (lo := 0) (body := fun i scale => max scale (scaleElements (A i))) (s := (0 : ℝ)) (fun _ x => x ≤ 5)
        (Nat.zero_le _) (by norm_num) (by intros; exact max_le (by assumption) (hrow _))
      exact this
    · have := scaleElt_le_matScale A 2 1
      rw [hA] at this ⊢
      simpa [scaleElt] using this
  have hX : (twoInit A 5).X = !![0, 0, 0; 0, 4 / 5, 3 / 5; 3 / 5, 1, 0] := by
    rw [hA]
    ext i j
    fin_cases i <;> fin_cases j <;> simp [twoInit]
  have s1 := first_sweep tol h0 h1 zs 0 _ hX
  have s2 := second_sweep tol h1 zs 1 _ s1.2
  have hl : jacobiLoop (twoSweep tol zs) (fuel + 3) 0 big big' (twoInit A (matScaleElements A)) =
      some (twoSweep tol zs 1 (twoSweep tol zs 0 (twoInit A 5)).1) := by
    rw [hsc]
    simp only [jacobiLoop]
    rw [if_pos h3, if_pos (by rw [s1.1]; linarith), if_neg (by rw [s1.1]; push Not; exact s2.1)]
  have hd : ∃ d, svdTwoSided tol big big' zs le_rfl (fuel + 3) A = some d := by
    unfold svdTwoSided
    simp only [hl]
    rw [if_neg (by rw [hsc]; norm_num)]
    exact ⟨_, rfl⟩
  obtain ⟨d, hd⟩ := hd
  refine ⟨d, hd, ?_⟩
  obtain ⟨_, x, hx, ⟨i1, i2, i3, _, _, _⟩, _, hd⟩ := twoSided_state h0 hd
  rw [hl, Option.some.injEq] at hx
  rw [hx] at s2
  intro hcon
  have hU : d.U = x.1.U := by rw [hd]; rfl
  have hV : d.V = x.1.V := by rw [hd]; rfl
  have hS : ∀ i, d.S i = x.1.X i i * 5 := by intro i; rw [hd, hsc]; rfl
  have i3' : x.1.V * x.1.V.conjTranspose = 1 := mul_eq_one_comm.1 i3
  have e1 : A = (5 : ℝ) • (twoInit A (matScaleElements A)).X := by
    rw [hsc, hX, hA]
    ext i j
    fin_cases i <;> fin_cases j <;> norm_num [Matrix.smul_apply]
  have e2 : x.1.U * Matrix.diagonal d.S * x.1.V = x.1.U * ((5 : ℝ) • x.1.X) * x.1.V := by
    rw [← hU, ← hV, hcon, Matrix.mul_smul, Matrix.smul_mul, hU, hV, i1, ← e1]
  have e3 : Matrix.diagonal d.S = (5 : ℝ) • x.1.X := by
    have : x.1.U.conjTranspose * (x.1.U * Matrix.diagonal d.S * x.1.V) * x.1.V.conjTranspose =
        x.1.U.conjTranspose * (x.1.U * ((5 : ℝ) • x.1.X) * x.1.V) * x.1.V.conjTranspose := by rw [e2]
    have f : ∀ M : Matrix (Fin 3) (Fin 3) ℝ, x.1.U.conjTranspose * (x.1.U * M * x.1.V) * x.1.V.conjTranspose = M := by
      intro M
      rw [show x.1.U.conjTranspose * (x.1.U * M * x.1.V) * x.1.V.conjTranspose = (x.1.U.conjTranspose * x.1.U) * M * (x.1.V * x.1.V.conjTranspose) by
        simp only [Matrix.mul_assoc], i2, i3', Matrix.one_mul, Matrix.mul_one]
    rwa [f, f] at this
  have f1 := congrFun (congrFun e3 1) 0
  have f2 := congrFun (congrFun e3 2) 0
  simp at f1 f2
  rcases s2.2 with h | h
  · exact h f1
  · exact h f2

end Mathter.Props
