import Verif.Model.RoundedSVDTwo
import Verif.Lemmas.RoundedSVD
import Verif.Spec.Frobenius

/-!
# Lemmas about the rounded two-sided singular value decomposition
-/

namespace Mathter.Fl
open Mathter Mathter.Props
variable {r n m : ℕ} {fl : ℝ → ℝ} {u w : ℝ}

/-! ## Pairs of cosines and sines -/

theorem norm2_fin2 (x y : ℝ) : norm2 ![x, y] = Real.sqrt (x ^ 2 + y ^ 2) := by
  unfold norm2
  rw [Fin.sum_univ_two]
  rfl

/-- The length of the computed product of two complex numbers. -/
theorem pair_prod {g a b c s z1 z2 : ℝ} (hg : 0 ≤ g) (h1 : |z1 - (a * c + b * s)| ≤ g * (|a| * |c| + |b| * |s|))
    (h2 : |z2 - (b * c - a * s)| ≤ g * (|b| * |c| + |a| * |s|)) :
    |Real.sqrt (z1 ^ 2 + z2 ^ 2) - Real.sqrt (a ^ 2 + b ^ 2) * Real.sqrt (c ^ 2 + s ^ 2)| ≤
      3 / 2 * g * (Real.sqrt (a ^ 2 + b ^ 2) * Real.sqrt (c ^ 2 + s ^ 2)) := by
  have e1 : Real.sqrt (a ^ 2 + b ^ 2) * Real.sqrt (c ^ 2 + s ^ 2) = norm2 ![a * c + b * s, b * c - a * s] := by
    rw [norm2_fin2, ← Real.sqrt_mul (by positivity)]
    congr 1; ring
  rw [← norm2_fin2, e1]
  refine (norm2_sub_le _ _).trans ?_
  have e2 : norm2 (fun i => ![z1, z2] i - ![a * c + b * s, b * c - a * s] i) ≤ g * norm2 ![|a| * |c| + |b| * |s|, |b| * |c| + |a| * |s|] := by
    refine norm2_le_mul hg fun i => ?_
    fin_cases i
    · exact h1.trans (mul_le_mul_of_nonneg_left (le_abs_self _) hg)
    · exact h2.trans (mul_le_mul_of_nonneg_left (le_abs_self _) hg)
  refine e2.trans ?_
  rw [mul_comm (3 / 2) g, mul_assoc]
  refine mul_le_mul_of_nonneg_left ?_ hg
  rw [← e1, norm2_fin2, ← Real.sqrt_mul (by positivity), ← Real.sqrt_sq (by norm_num : (0 : ℝ) ≤ 3 / 2), ← Real.sqrt_mul (by positivity)]
  apply Real.sqrt_le_sqrt
  rw [← sq_abs a, ← sq_abs b, ← sq_abs c, ← sq_abs s]
  have k1 := mul_nonneg (abs_nonneg a) (abs_nonneg b)
  have k2 := mul_nonneg (abs_nonneg c) (abs_nonneg s)
  have k3 : 2 * (|a| * |b|) ≤ |a| ^ 2 + |b| ^ 2 := by nlinarith [sq_nonneg (|a| - |b|)]
  have k4 : 2 * (|c| * |s|) ≤ |c| ^ 2 + |s| ^ 2 := by nlinarith [sq_nonneg (|c| - |s|)]
  have k5 := mul_le_mul k3 k4 (by positivity) (by positivity)
  nlinarith [mul_nonneg (by positivity : 0 ≤ |a| ^ 2 + |b| ^ 2) (by positivity : 0 ≤ |c| ^ 2 + |s| ^ 2)]

theorem ps_err (h : Rounding fl u) {ps : ℝ → ℝ → ℝ → ℝ → ℝ} (hps : IsProdSum fl ps) (a b c d : ℝ) :
    |ps a b c d - (a * b + c * d)| ≤ ((1 + u) ^ 2 - 1) * (|a| * |b| + |c| * |d|) :=
  (near_ps h hps (Near.exact (u := u) a) (Near.exact b) (Near.exact c) (Near.exact d)).err

theorem ps_idem (h : Rounding fl u) {ps : ℝ → ℝ → ℝ → ℝ → ℝ} (hps : IsProdSum fl ps) (a b c d : ℝ) : fl (ps a b c d) = ps a b c d := by
  rcases hps a b c d with e | e | e <;> rw [e, h.idem]

/-- Error of the product of two rotations. -/
theorem pair_prod_unit {g η1 η2 a b c s z1 z2 : ℝ} (hg : 0 ≤ g) (hab : NearUnit η1 a b) (hcs : NearUnit η2 c s)
    (h1 : |z1 - (a * c + b * s)| ≤ g * (|a| * |c| + |b| * |s|)) (h2 : |z2 - (b * c - a * s)| ≤ g * (|b| * |c| + |a| * |s|)) :
    NearUnit ((1 + 3 / 2 * g) * (1 + η1) * (1 + η2) - 1) z1 z2 := by
  have hp := abs_le.1 (pair_prod hg h1 h2)
  unfold NearUnit at *
  have h1n : 0 ≤ η1 := (abs_nonneg _).trans hab
  have h2n : 0 ≤ η2 := (abs_nonneg _).trans hcs
  have hx := Real.sqrt_nonneg (a ^ 2 + b ^ 2)
  have hy := Real.sqrt_nonneg (c ^ 2 + s ^ 2)
  generalize Real.sqrt (a ^ 2 + b ^ 2) = x at *
  generalize Real.sqrt (c ^ 2 + s ^ 2) = y at *
  generalize Real.sqrt (z1 ^ 2 + z2 ^ 2) = z at *
  rw [abs_le] at hab hcs
  have k1 : x * y ≤ (1 + η1) * (1 + η2) := mul_le_mul (by linarith) (by linarith) hy (by linarith)
  have k2 : |x * y - 1| ≤ (1 + η1) * (1 + η2) - 1 := by
    have e : x * y - 1 = (x - 1) * (y - 1) + (x - 1) + (y - 1) := by ring
    have a1 : |x - 1| ≤ η1 := abs_le.2 hab
    have a2 : |y - 1| ≤ η2 := abs_le.2 hcs
    rw [e]
    have := mul_le_mul a1 a2 (abs_nonneg _) h1n
    calc _ ≤ |(x - 1) * (y - 1) + (x - 1)| + |y - 1| := abs_add_le _ _
      _ ≤ |(x - 1) * (y - 1)| + |x - 1| + |y - 1| := by linarith [abs_add_le ((x - 1) * (y - 1)) (x - 1)]
      _ ≤ η1 * η2 + η1 + η2 := by rw [abs_mul]; linarith
      _ = _ := by ring
  have k3 := mul_le_mul_of_nonneg_left k1 (by positivity : 0 ≤ 3 / 2 * g)
  have k4 := abs_le.1 k2
  rw [abs_le]
  constructor <;> linarith

theorem NearUnit.mono {η η' c s : ℝ} (h : NearUnit η c s) (hle : η ≤ η') : NearUnit η' c s := le_trans h hle

theorem NearUnit.swap {η c s : ℝ} (h : NearUnit η c s) : NearUnit η s c := by
  unfold NearUnit at *
  rwa [add_comm]

/-- Deviation of the length of a pair divided by its `std::hypot`. -/
noncomputable def hypErr (u w : ℝ) : ℝ := (1 + u) / (1 - w) - 1

theorem hyp_unit (h : Rounding fl u) (hu1 : u < 1) {hyp : ℝ → ℝ → ℝ → ℝ} (hh : IsHypot w hyp) (hw : 0 ≤ w) (hw1 : w < 1) (x : ℝ) :
    NearUnit (hypErr u w) (fl (1 / hyp 1 x 0)) (fl (x / hyp 1 x 0)) := by
  have hu := h.u_nonneg
  have h1u : 0 < 1 - u := by linarith
  have h1w : 0 < 1 - w := by linarith
  have hT := abs_le.1 (hh 1 x 0)
  have hN : 0 < 1 + x ^ 2 := by positivity
  rw [show (1 : ℝ) ^ 2 + x ^ 2 + 0 ^ 2 = 1 + x ^ 2 by ring] at hT
  have ht0 : 0 < Real.sqrt (1 + x ^ 2) := Real.sqrt_pos.2 hN
  set t := Real.sqrt (1 + x ^ 2) with ht
  generalize hyp 1 x 0 = sc at *
  have hsc : 0 < sc := by nlinarith
  have hc := abs_fl_le h (1 / sc)
  have hd := abs_fl_le h (x / sc)
  have e : ∀ k, 0 ≤ k → k * (t / sc) = Real.sqrt ((k * |1 / sc|) ^ 2 + (k * |x / sc|) ^ 2) := by
    intro k hk
    rw [mul_pow, mul_pow, sq_abs, sq_abs, div_pow, div_pow, ← mul_add, ← add_div, Real.sqrt_mul (by positivity), Real.sqrt_div (by positivity),
      Real.sqrt_sq hk, Real.sqrt_sq hsc.le, one_pow]
  have k1 : (1 - u) * (t / sc) ≤ Real.sqrt (fl (1 / sc) ^ 2 + fl (x / sc) ^ 2) := by
    rw [e _ h1u.le, ← sq_abs (fl (1 / sc)), ← sq_abs (fl (x / sc))]
    exact Real.sqrt_le_sqrt (add_le_add (pow_le_pow_left₀ (by positivity) hc.1 2) (pow_le_pow_left₀ (by positivity) hd.1 2))
  have k2 : Real.sqrt (fl (1 / sc) ^ 2 + fl (x / sc) ^ 2) ≤ (1 + u) * (t / sc) := by
    rw [e _ (by linarith), ← sq_abs (fl (1 / sc)), ← sq_abs (fl (x / sc))]
    exact Real.sqrt_le_sqrt (add_le_add (pow_le_pow_left₀ (by positivity) hc.2 2) (pow_le_pow_left₀ (by positivity) hd.2 2))
  have k3 : t / sc ≤ 1 / (1 - w) := by rw [div_le_div_iff₀ hsc h1w]; linarith
  have k4 : 1 / (1 + w) ≤ t / sc := by rw [div_le_div_iff₀ (by linarith) hsc]; linarith
  have k5 := mul_le_mul_of_nonneg_left k3 (by linarith : 0 ≤ 1 + u)
  have k6 := mul_le_mul_of_nonneg_left k4 h1u.le
  rw [mul_one_div] at k5 k6
  have k7 : 2 ≤ (1 - u) / (1 + w) + (1 + u) / (1 - w) := by
    rw [div_add_div _ _ (by linarith) (by linarith), le_div_iff₀ (by positivity)]
    nlinarith [mul_nonneg hu hw, sq_nonneg w]
  unfold NearUnit hypErr
  rw [abs_le]
  constructor <;> linarith

theorem hypErr_nonneg (h : Rounding fl u) (hw : 0 ≤ w) (hw1 : w < 1) : 0 ≤ hypErr u w := by
  unfold hypErr
  rw [sub_nonneg, le_div_iff₀ (by linarith)]
  linarith [h.u_nonneg]

/-! ## The 2x2 kernel -/

/-- Deviation of the length of the right cosine and sine. -/
noncomputable def twoErr (u w : ℝ) : ℝ := (1 + 3 / 2 * ((1 + u) ^ 2 - 1)) * (1 + hypErr u w) * (1 + unitErr u) - 1

theorem unitErr_le_twoErr (h : Rounding fl u) (hu1 : u < 1) (hw : 0 ≤ w) (hw1 : w < 1) : unitErr u ≤ twoErr u w := by
  unfold twoErr
  have h1 := h.one_le 2
  have h2 := unitErr_nonneg h hu1
  have h3 := hypErr_nonneg h hw hw1
  have : (1 : ℝ) ≤ (1 + 3 / 2 * ((1 + u) ^ 2 - 1)) * (1 + hypErr u w) := one_le_mul_of_one_le_of_one_le (by linarith) (by linarith)
  nlinarith

theorem rq_unit (h : Rounding fl u) (hu1 : u < 1) {ps : ℝ → ℝ → ℝ → ℝ → ℝ} (hps : IsProdSum fl ps) (pd : ℝ → ℝ → ℝ → ℝ → ℝ) (a11 a12 a21 a22 : ℝ) :
    NearUnit (unitErr u) (decomposeRQ2 fl ps pd a11 a12 a21 a22).cq (decomposeRQ2 fl ps pd a11 a12 a21 a22).sq := by
  unfold decomposeRQ2
  split
  · unfold NearUnit
    simpa using unitErr_nonneg h hu1
  · rename_i ha
    refine (pair_unit h hu1 hps (Or.inl ?_)).swap
    intro h0
    have := (abs_fl_le h (a21 / max |a21| |a22|)).1
    rw [h0, abs_zero, abs_div] at this
    have hp : 0 < |a21| / |(max |a21| |a22|)| := div_pos (abs_pos.2 ha) (abs_pos.2 (ne_of_gt (lt_max_of_lt_left (abs_pos.2 ha))))
    nlinarith

theorem tri_unit (h : Rounding fl u) (hu1 : u < 1) (ps : ℝ → ℝ → ℝ → ℝ → ℝ) {hyp : ℝ → ℝ → ℝ → ℝ} (hh : IsHypot w hyp) (hw : 0 ≤ w) (hw1 : w < 1)
    (neg : Bool) (r11 r12 r22 : ℝ) :
    NearUnit (hypErr u w) (diagonalizeTriangular fl ps hyp neg r11 r12 r22).1 (diagonalizeTriangular fl ps hyp neg r11 r12 r22).2 := by
  unfold diagonalizeTriangular
  simp only
  split
  · unfold NearUnit
    simpa using hypErr_nonneg h hw hw1
  · exact hyp_unit h hu1 hh hw hw1 _

/-- The largest of four numbers. -/
theorem maxIdx4_le (s : Fin 4 → ℝ) (i : Fin 4) : s i ≤ s (maxIdx4 s) := by
  have := forUp_inv (n := 4) (lo := 1) (body := fun i best => if s best < s i then i else best) (s := (0 : Fin 4))
    (fun k x => ∀ i : Fin 4, i.val < k → s i ≤ s x) (by norm_num) (fun i hi => by
      have : i = 0 := Fin.ext (by omega)
      rw [this])
    (by
      intro i x _ hx j hj
      by_cases hij : j = i
      · subst hij
        split
        · exact le_rfl
        · rename_i hn; exact not_lt.1 hn
      · have hj' := hx j (by have : j.val ≠ i.val := fun h => hij (Fin.ext h)
                             omega)
        split
        · rename_i hn; exact hj'.trans hn.le
        · exact hj')
  exact this i i.isLt

theorem normalizeK_abs (zs : ZeroSigns ℝ) (y : ℝ) : normalizeK zs.one y = 1 ∨ normalizeK zs.one y = -1 := by
  have h : |normalizeK zs.one y| = 1 := by
    unfold normalizeK
    split
    · exact zs.norm_one
    · rename_i hy
      rw [abs_div]
      simp [hy]
  rcases abs_choice (normalizeK zs.one y) with e | e <;> rw [e] at h
  · exact Or.inl h
  · exact Or.inr (by linarith)

theorem fl_mul_sign (h : Rounding fl u) {x s : ℝ} (hs : s = 1 ∨ s = -1) (hx : fl x = x) : fl (x * s) = x * s := by
  rcases hs with rfl | rfl
  · rw [mul_one, hx]
  · rw [mul_neg_one, h.odd, hx]

theorem scaled_unit (h : Rounding fl u) (hu1 : u < 1) {ps : ℝ → ℝ → ℝ → ℝ → ℝ} (hps : IsProdSum fl ps) (zs : ZeroSigns ℝ) {a b c d : ℝ}
    (hne : a ≠ 0 ∨ b ≠ 0 ∨ c ≠ 0 ∨ d ≠ 0) :
    NearUnit (unitErr u) (scaledOrthogonal2 fl ps zs.one a b c d).1 (scaledOrthogonal2 fl ps zs.one a b c d).2.1 ∧
      |(scaledOrthogonal2 fl ps zs.one a b c d).2.2.1| = 1 ∧
      fl (-(scaledOrthogonal2 fl ps zs.one a b c d).2.2.1 * (scaledOrthogonal2 fl ps zs.one a b c d).2.1) =
        -(scaledOrthogonal2 fl ps zs.one a b c d).2.2.1 * (scaledOrthogonal2 fl ps zs.one a b c d).2.1 := by
  unfold scaledOrthogonal2
  simp only
  set k := maxIdx4 fun i => |![a, c, b, d] i| with hk
  have hmax : ∀ i, |![a, c, b, d] i| ≤ |![a, c, b, d] k| := maxIdx4_le fun i => |![a, c, b, d] i|
  clear_value k
  have hnz : ![a, c, b, d] k ≠ 0 := by
    intro h0
    rw [h0, abs_zero] at hmax
    have e0 := abs_nonpos_iff.1 (hmax 0)
    have e1 := abs_nonpos_iff.1 (hmax 1)
    have e2 := abs_nonpos_iff.1 (hmax 2)
    have e3 := abs_nonpos_iff.1 (hmax 3)
    simp at e0 e1 e2 e3
    simp [e0, e1, e2, e3] at hne
  generalize (if k = 1 ∨ k = 2 then -fl (![a, c, b, d] (3 - k) / ![a, c, b, d] k) else fl (![a, c, b, d] (3 - k) / ![a, c, b, d] k)) = y
  have hs := normalizeK_abs zs y
  generalize normalizeK zs.one y = s at *
  have hs1 : |s| = 1 := by rcases hs with rfl | rfl <;> simp
  have hs2 : s ^ 2 = 1 := by rw [← sq_abs, hs1, one_pow]
  refine ⟨?_, hs1, ?_⟩
  · split
    · rename_i hle
      have : a ≠ 0 ∨ c ≠ 0 := by
        fin_cases k
        · exact Or.inl (by simpa using hnz)
        · exact Or.inr (by simpa using hnz)
        · exact absurd hle (by decide)
        · exact absurd hle (by decide)
      exact pair_unit h hu1 hps this
    · rename_i hle
      have : b ≠ 0 ∨ d ≠ 0 := by
        fin_cases k
        · exact absurd (by decide) hle
        · exact absurd (by decide) hle
        · exact Or.inl (by simpa using hnz)
        · exact Or.inr (by simpa using hnz)
      have hu := (pair_unit h hu1 hps this).swap
      have f1 := fl_mul_sign h hs (h.idem (d / fl (Real.sqrt (ps b b d d))))
      have f2 := fl_mul_sign h hs (x := -fl (b / fl (Real.sqrt (ps b b d d)))) (by rw [h.odd, h.idem])
      simp only [Matrix.cons_val]
      unfold NearUnit at *
      rw [f1, f2]
      rwa [mul_pow, mul_pow, neg_sq, hs2, mul_one, mul_one]
  · have hsu : ∀ y, fl y = y → fl (-s * y) = -s * y := by
      intro y hy
      rw [mul_comm]
      exact fl_mul_sign h (by rcases hs with rfl | rfl <;> simp) hy
    apply hsu
    split
    · simp only [Matrix.cons_val]; exact h.idem _
    · exact h.idem _

theorem row_ne_zero {g η a b c s z1 z2 : ℝ} (hg : 0 ≤ g) (hg1 : 3 / 2 * g < 1) (hη : η < 1) (hcs : NearUnit η c s) (hab : a ≠ 0 ∨ b ≠ 0)
    (h1 : |z1 - (a * c + b * s)| ≤ g * (|a| * |c| + |b| * |s|)) (h2 : |z2 - (b * c - a * s)| ≤ g * (|b| * |c| + |a| * |s|)) : z1 ≠ 0 ∨ z2 ≠ 0 := by
  by_contra h0
  simp only [not_or, not_not] at h0
  have hp := (abs_le.1 (pair_prod hg h1 h2)).1
  have hx : 0 < Real.sqrt (a ^ 2 + b ^ 2) := Real.sqrt_pos.2 (by rcases hab with h | h <;> positivity)
  have hy : 0 < Real.sqrt (c ^ 2 + s ^ 2) := by
    unfold NearUnit at hcs
    have := (abs_le.1 hcs).1
    linarith
  rw [h0.1, h0.2] at hp
  have := mul_pos hx hy
  simp at hp
  nlinarith

/-- What the rotations of one pair need to know about the 2x2 decomposition. -/
structure KernelUnit (fl : ℝ → ℝ) (η : ℝ) (d : SVD2 ℝ) : Prop where
  left : NearUnit η d.cu d.su
  right : NearUnit η d.cv d.sv
  det : |d.det| = 1
  exact_su : fl (-d.det * d.su) = -d.det * d.su

theorem svd2_unit (h : Rounding fl u) (h1 : fl 1 = 1) (hu1 : u < 1) {ps : ℝ → ℝ → ℝ → ℝ → ℝ} (hps : IsProdSum fl ps) (pd : ℝ → ℝ → ℝ → ℝ → ℝ)
    {hyp : ℝ → ℝ → ℝ → ℝ} (hh : IsHypot w hyp) (hw : 0 ≤ w) (hw1 : w < 1) (hη : twoErr u w < 1) (zs : ZeroSigns ℝ) (a11 a12 a21 a22 : ℝ) :
    KernelUnit fl (twoErr u w) (decomposeSVD2 fl ps pd hyp zs a11 a12 a21 a22) := by
  have hu := h.u_nonneg
  have hg : 0 ≤ (1 + u) ^ 2 - 1 := by linarith [h.one_le 2]
  have hle := unitErr_le_twoErr h hu1 hw hw1
  have hg1 : 3 / 2 * ((1 + u) ^ 2 - 1) < 1 := by
    unfold twoErr at hη
    have k1 := hypErr_nonneg h hw hw1
    have k2 := unitErr_nonneg h hu1
    have : 1 + 3 / 2 * ((1 + u) ^ 2 - 1) ≤ (1 + 3 / 2 * ((1 + u) ^ 2 - 1)) * (1 + hypErr u w) * (1 + unitErr u) := by
      rw [mul_assoc]
      exact le_mul_of_one_le_right (by linarith) (one_le_mul_of_one_le_of_one_le (by linarith) (by linarith))
    linarith
  unfold decomposeSVD2
  simp only
  split
  · have h0 : 0 ≤ twoErr u w := (unitErr_nonneg h hu1).trans hle
    have hz : fl 0 = 0 := fl_zero h
    exact ⟨by unfold NearUnit; simpa using h0, by unfold NearUnit; simpa using h0, by simp, by simpa using hz⟩
  · rename_i hsc
    have hsc0 : 0 < max (max |a11| |a12|) (max |a21| |a22|) :=
      lt_of_le_of_ne ((abs_nonneg a11).trans ((le_max_left _ _).trans (le_max_left _ _))) (Ne.symm hsc)
    have hB : ∃ b : Bool, (if b then a11 else a21) ≠ 0 ∨ (if b then a12 else a22) ≠ 0 := by
      by_contra hn
      push Not at hn
      have t := hn true
      have f := hn false
      simp only [if_true, Bool.false_eq_true, if_false] at t f
      rw [t.1, t.2, f.1, f.2] at hsc0
      simp at hsc0
    set scale := max (max |a11| |a12|) (max |a21| |a22|)
    clear_value scale
    have hne : ∀ a, a ≠ 0 → fl (a / scale) ≠ 0 := by
      intro a ha h0
      have := (abs_fl_le h (a / scale)).1
      rw [h0, abs_zero] at this
      have hp : 0 < |a / scale| := abs_pos.2 (div_ne_zero ha hsc0.ne')
      nlinarith
    have hB' : (fl (a11 / scale) ≠ 0 ∨ fl (a12 / scale) ≠ 0) ∨ (fl (a21 / scale) ≠ 0 ∨ fl (a22 / scale) ≠ 0) := by
      obtain ⟨b, hb⟩ := hB
      cases b
      · right; simpa using hb.imp (hne _) (hne _)
      · left; simpa using hb.imp (hne _) (hne _)
    generalize fl (a11 / scale) = b11 at *
    generalize fl (a12 / scale) = b12 at *
    generalize fl (a21 / scale) = b21 at *
    generalize fl (a22 / scale) = b22 at *
    have hq := rq_unit h hu1 hps pd b11 b12 b21 b22
    generalize decomposeRQ2 fl ps pd b11 b12 b21 b22 = rq at *
    have ht := tri_unit h hu1 ps hh hw hw1 zs.neg rq.r11 rq.r12 rq.r22
    generalize diagonalizeTriangular fl ps hyp zs.neg rq.r11 rq.r12 rq.r22 = v1 at *
    have hv0 : NearUnit (twoErr u w) (ps rq.cq v1.1 rq.sq v1.2) (ps (-rq.sq) v1.1 rq.cq v1.2) := by
      refine pair_prod_unit hg ht hq ?_ ?_
      · have := ps_err h hps rq.cq v1.1 rq.sq v1.2
        rwa [mul_comm rq.cq, mul_comm rq.sq, mul_comm |rq.cq|, mul_comm |rq.sq|] at this
      · have := ps_err h hps (-rq.sq) v1.1 rq.cq v1.2
        rw [abs_neg] at this
        rw [show v1.2 * rq.cq - v1.1 * rq.sq = -rq.sq * v1.1 + rq.cq * v1.2 by ring, show |v1.2| * |rq.cq| + |v1.1| * |rq.sq| = |rq.sq| * |v1.1| + |rq.cq| * |v1.2| by ring]
        exact this
    obtain ⟨m1, _⟩ := minimizeRotation_eq h h1 (ps_idem h hps rq.cq v1.1 rq.sq v1.2) (ps_idem h hps (-rq.sq) v1.1 rq.cq v1.2) (ne_zero_of_nearUnit hη hv0)
    generalize minimizeRotation fl (ps rq.cq v1.1 rq.sq v1.2) (ps (-rq.sq) v1.1 rq.cq v1.2) = v at *
    have hv : NearUnit (twoErr u w) v.1 v.2 := by unfold NearUnit at *; rwa [m1]
    have hrow : ∀ a b, a ≠ 0 ∨ b ≠ 0 → ps a v.1 b v.2 ≠ 0 ∨ ps a (-v.2) b v.1 ≠ 0 := by
      intro a b hab
      refine row_ne_zero hg hg1 hη hv hab (ps_err h hps a v.1 b v.2) ?_
      have := ps_err h hps a (-v.2) b v.1
      rw [abs_neg] at this
      rw [show b * v.1 - a * v.2 = a * -v.2 + b * v.1 by ring, add_comm (|b| * |v.1|)]
      exact this
    have hus : ps b11 v.1 b12 v.2 ≠ 0 ∨ ps b11 (-v.2) b12 v.1 ≠ 0 ∨ ps b21 v.1 b22 v.2 ≠ 0 ∨ ps b21 (-v.2) b22 v.1 ≠ 0 := by
      rcases hB' with hb | hb
      · rcases hrow _ _ hb with h | h
        · exact Or.inl h
        · exact Or.inr (Or.inl h)
      · exact Or.inr (Or.inr (hrow _ _ hb))
    obtain ⟨s1, s2, s3⟩ := scaled_unit h hu1 hps zs hus
    exact ⟨s1.mono hle, by unfold NearUnit at *; simpa using hv, s2, s3⟩

theorem ps_exact (h : Rounding fl u) {ps : ℝ → ℝ → ℝ → ℝ → ℝ} (hps : IsProdSum fl ps) {a b c d : ℝ} (h1 : fl (a * b) = a * b) (h2 : c * d = 0) :
    ps a b c d = a * b := by
  have hz := fl_zero h
  rcases hps a b c d with e | e | e <;> rw [e, h2] <;> simp [hz, h1]

theorem ps_exact' (h : Rounding fl u) {ps : ℝ → ℝ → ℝ → ℝ → ℝ} (hps : IsProdSum fl ps) {a b c d : ℝ} (h1 : a * b = 0) (h2 : fl (c * d) = c * d) :
    ps a b c d = c * d := by
  have hz := fl_zero h
  rcases hps a b c d with e | e | e <;> rw [e, h1] <;> simp [hz, h2]

theorem pd_exact (h : Rounding fl u) {pd : ℝ → ℝ → ℝ → ℝ → ℝ} (hpd : IsProdDiff fl pd) {a b c d : ℝ} (h1 : fl (a * b) = a * b) (h2 : c * d = 0) :
    pd a b c d = a * b := by
  have hz := fl_zero h
  rcases hpd a b c d with e | e | e <;> rw [e, h2] <;> simp [hz, h1]

/-- The right rotation of a matrix whose second column is zero is the identity, without rounding errors. -/
theorem svd2_tall (h : Rounding fl u) (h1 : fl 1 = 1) (hu1 : u < 1) {ps pd : ℝ → ℝ → ℝ → ℝ → ℝ} (hps : IsProdSum fl ps) (hpd : IsProdDiff fl pd)
    (hyp : ℝ → ℝ → ℝ → ℝ) (zs : ZeroSigns ℝ) (a11 a21 : ℝ) (ha : a21 ≠ 0) :
    (decomposeSVD2 fl ps pd hyp zs a11 0 a21 0).cv = 1 ∧ (decomposeSVD2 fl ps pd hyp zs a11 0 a21 0).sv = 0 := by
  have hz := fl_zero h
  have hsc0 : 0 < max (max |a11| |0|) (max |a21| |0|) := lt_max_of_lt_right (lt_max_of_lt_left (abs_pos.2 ha))
  unfold decomposeSVD2
  simp only
  rw [if_neg hsc0.ne']
  generalize max (max |a11| |0|) (max |a21| |0|) = scale at *
  rw [zero_div, hz]
  have hb : fl (a21 / scale) ≠ 0 := by
    intro h0
    have := (abs_fl_le h (a21 / scale)).1
    rw [h0, abs_zero] at this
    have hp : 0 < |a21 / scale| := abs_pos.2 (div_ne_zero ha hsc0.ne')
    nlinarith
  generalize fl (a21 / scale) = b21 at *
  generalize fl (a11 / scale) = b11 at *
  obtain ⟨sq, hsq, hrq⟩ : ∃ sq : ℝ, (sq = 1 ∨ sq = -1) ∧ ∃ x y, decomposeRQ2 fl ps pd b11 0 b21 0 = ⟨0, x, y, 0, sq⟩ := by
    have hsg : ∃ sq : ℝ, (sq = 1 ∨ sq = -1) ∧ fl (b21 / |b21|) = sq := by
      rcases lt_or_gt_of_ne hb with hneg | hpos
      · refine ⟨-1, Or.inr rfl, ?_⟩
        rw [abs_of_neg hneg, show b21 / -b21 = -1 by field_simp, h.odd, h1]
      · refine ⟨1, Or.inl rfl, ?_⟩
        rw [abs_of_pos hpos, div_self hb, h1]
    obtain ⟨sq, hs, e⟩ := hsg
    refine ⟨sq, hs, ?_⟩
    have hss : sq * sq = 1 := by rcases hs with rfl | rfl <;> norm_num
    have hfs : fl sq = sq := by
      rcases hs with rfl | rfl
      · exact h1
      · rw [h.odd, h1]
    unfold decomposeRQ2
    rw [if_neg hb]
    simp only [abs_zero, max_eq_left (abs_nonneg b21), zero_div, hz, e]
    have hd : ps sq sq 0 0 = 1 := by rw [ps_exact h hps (by rw [hss, h1]) (by simp), hss]
    have hr : pd b11 0 0 sq = 0 := by rw [pd_exact h hpd (by rw [mul_zero, hz]) (by simp), mul_zero]
    rw [hd, Real.sqrt_one, h1, div_one, hfs, hr]
    exact ⟨_, _, rfl⟩
  obtain ⟨x, y, hrq⟩ := hrq
  rw [hrq]
  have ht : diagonalizeTriangular fl ps hyp zs.neg 0 x y = (1, 0) := by
    unfold diagonalizeTriangular
    simp [hz]
  have hss : sq * sq = 1 := by rcases hsq with rfl | rfl <;> norm_num
  have hfs : fl sq = sq := by
    rcases hsq with rfl | rfl
    · exact h1
    · rw [h.odd, h1]
  simp only [ht]
  have e1 : ps 0 1 sq 0 = 0 := by rw [ps_exact h hps (by simp [hz]) (by simp)]; simp
  have e2 : ps (-sq) 1 0 0 = -sq := by rw [ps_exact h hps (by rw [mul_one, h.odd, hfs]) (by simp)]; simp
  rw [e1, e2]
  have habs : |sq| = 1 := by rcases hsq with rfl | rfl <;> simp
  have hm : minimizeRotation fl 0 (-sq) = (1, 0) := by
    unfold minimizeRotation
    simp [habs, hfs, hss, h1, hz]
  rw [hm]
  simp

/-! ## The loops of the two-sided algorithm -/

theorem norm2_mul_row {G : Matrix (Fin n) (Fin n) ℝ} (hG : G.transpose * G = 1) (M : Matrix (Fin r) (Fin n) ℝ) (i : Fin r) :
    norm2 (fun j => (M * G) i j) = norm2 fun j => M i j := by
  have hG' : G.transpose.transpose * G.transpose = 1 := by rw [Matrix.transpose_transpose]; exact mul_eq_one_comm.1 hG
  rw [← norm2_mulVec hG' fun j => M i j]
  congr 1
  funext j
  simp only [Matrix.mul_apply, Matrix.mulVec, dotProduct, Matrix.transpose_apply]
  exact Finset.sum_congr rfl fun k _ => mul_comm _ _

theorem norm2_mul_col' {H : Matrix (Fin n) (Fin n) ℝ} (hH : H.transpose * H = 1) (M : Matrix (Fin n) (Fin m) ℝ) (j : Fin m) :
    norm2 (fun i => (H * M) i j) = norm2 fun i => M i j := norm2_mulVec hH fun i => M i j

/-- The working matrices after `k` rotations: they are what exact rotations with the products `P` and `Q` would give, up to small errors. -/
structure TwoErr (fl : ℝ → ℝ) (ε : ℝ) (B : Matrix (Fin r) (Fin r) ℝ) (c : ℕ) (s : TwoState ℝ r) (k : ℕ) (P Q : Matrix (Fin r) (Fin r) ℝ) : Prop where
  unitP : P.transpose * P = 1
  unitQ : Q.transpose * Q = 1
  U : ∀ i, norm2 (fun j => s.U i j - P i j) ≤ (1 + ε) ^ k - 1
  V : ∀ j, norm2 (fun i => s.V i j - Q i j) ≤ (1 + ε) ^ k - 1
  X : frob (s.X - P.transpose * B * Q.transpose) ≤ ((1 + ε) ^ (2 * k) - 1) * frob B
  cols : ∀ i j : Fin r, c ≤ j.val → s.X i j = 0
  blockV : ∀ i j : Fin r, (c ≤ i.val ∨ c ≤ j.val) → s.V i j = if i = j then 1 else 0
  blockQ : ∀ i j : Fin r, (c ≤ i.val ∨ c ≤ j.val) → Q i j = if i = j then 1 else 0
  rep : ∀ i j, fl (s.X i j) = s.X i j

theorem TwoErr.mono {ε : ℝ} (hε : 0 ≤ ε) {B : Matrix (Fin r) (Fin r) ℝ} {c : ℕ} {s : TwoState ℝ r} {k l : ℕ} (hkl : k ≤ l)
    {P Q : Matrix (Fin r) (Fin r) ℝ} (h : TwoErr fl ε B c s k P Q) : TwoErr fl ε B c s l P Q := by
  have hp : (1 + ε) ^ k ≤ (1 + ε) ^ l := pow_le_pow_right₀ (by linarith) hkl
  have hp2 : (1 + ε) ^ (2 * k) ≤ (1 + ε) ^ (2 * l) := pow_le_pow_right₀ (by linarith) (by omega)
  exact ⟨h.unitP, h.unitQ, fun i => (h.U i).trans (by linarith), fun j => (h.V j).trans (by linarith),
    h.X.trans (mul_le_mul_of_nonneg_right (by linarith) (frob_nonneg _)), h.cols, h.blockV, h.blockQ, h.rep⟩

theorem step_row {ε e : ℝ} (hε : 0 ≤ ε) {G P U U' : Matrix (Fin r) (Fin r) ℝ} (hG : G.transpose * G = 1) (hP : P.transpose * P = 1) {i : Fin r}
    (hU : norm2 (fun j => U i j - P i j) ≤ e - 1) (hU' : norm2 (fun j => U' i j - (U * G) i j) ≤ ε * norm2 (U i)) :
    norm2 (fun j => U' i j - (P * G) i j) ≤ e * (1 + ε) - 1 := by
  have h0 : norm2 (fun j => P i j) = 1 := by
    have := norm2_mul_row hP 1 i
    rw [Matrix.one_mul] at this
    rw [this]
    unfold norm2
    simp [Matrix.one_apply]
  have h1 : norm2 (U i) ≤ e := by
    have t := norm2_add_le (fun j => U i j - P i j) (fun j => P i j)
    simp only [sub_add_cancel] at t
    rw [h0] at t
    change norm2 (fun j => U i j) ≤ e
    linarith
  have t := norm2_add_le (fun j => U' i j - (U * G) i j) (fun j => ((U - P) * G) i j)
  rw [norm2_mul_row hG] at t
  have e1 : (fun j => U' i j - (U * G) i j + ((U - P) * G) i j) = fun j => U' i j - (P * G) i j := by
    funext j
    rw [Matrix.sub_mul, Matrix.sub_apply]; ring
  rw [e1] at t
  have := mul_le_mul_of_nonneg_left h1 hε
  have hs : norm2 (fun j => (U - P) i j) ≤ e - 1 := hU
  linarith

theorem step_col' {ε e : ℝ} (hε : 0 ≤ ε) {H Q V V' : Matrix (Fin r) (Fin r) ℝ} (hH : H.transpose * H = 1) (hQ : Q.transpose * Q = 1) {j : Fin r}
    (hV : norm2 (fun i => V i j - Q i j) ≤ e - 1) (hV' : norm2 (fun i => V' i j - (H * V) i j) ≤ ε * norm2 (fun i => V i j)) :
    norm2 (fun i => V' i j - (H * Q) i j) ≤ e * (1 + ε) - 1 := by
  have h0 : norm2 (fun i => Q i j) = 1 := by
    have := norm2_mul_col' hQ 1 j
    rw [Matrix.mul_one] at this
    rw [this]
    unfold norm2
    simp [Matrix.one_apply]
  have h1 : norm2 (fun i => V i j) ≤ e := by
    have t := norm2_add_le (fun i => V i j - Q i j) (fun i => Q i j)
    simp only [sub_add_cancel] at t
    rw [h0] at t
    linarith
  have t := norm2_add_le (fun i => V' i j - (H * V) i j) (fun i => (H * (V - Q)) i j)
  rw [norm2_mul_col' hH] at t
  have e1 : (fun i => V' i j - (H * V) i j + (H * (V - Q)) i j) = fun i => V' i j - (H * Q) i j := by
    funext i
    rw [Matrix.mul_sub, Matrix.sub_apply]; ring
  rw [e1] at t
  have := mul_le_mul_of_nonneg_left h1 hε
  have hs : norm2 (fun i => (V - Q) i j) ≤ e - 1 := hV
  linarith

theorem step_mid {ε e : ℝ} (hε : 0 ≤ ε) {G H P Q X X1 X2 B : Matrix (Fin r) (Fin r) ℝ} (hG : G.transpose * G = 1) (hH : H.transpose * H = 1)
    (hP : P.transpose * P = 1) (hQ : Q.transpose * Q = 1) (hX : frob (X - P.transpose * B * Q.transpose) ≤ (e - 1) * frob B)
    (h1 : frob (X1 - G.transpose * X) ≤ ε * frob X) (h2 : frob (X2 - X1 * H.transpose) ≤ ε * frob X1) :
    frob (X2 - (P * G).transpose * B * (H * Q).transpose) ≤ (e * (1 + ε) ^ 2 - 1) * frob B := by
  have hG' : G.transpose.transpose * G.transpose = 1 := by rw [Matrix.transpose_transpose]; exact mul_eq_one_comm.1 hG
  have hP' : P.transpose.transpose * P.transpose = 1 := by rw [Matrix.transpose_transpose]; exact mul_eq_one_comm.1 hP
  have hH' : H.transpose * H.transpose.transpose = 1 := by rw [Matrix.transpose_transpose]; exact hH
  have hQ' : Q.transpose * Q.transpose.transpose = 1 := by rw [Matrix.transpose_transpose]; exact hQ
  have hB := frob_nonneg B
  have f0 : frob (P.transpose * B * Q.transpose) = frob B := by rw [frob_mul_orth hQ', frob_orth_mul hP']
  have f1 : frob X ≤ e * frob B := by
    have t := frob_add_le (X - P.transpose * B * Q.transpose) (P.transpose * B * Q.transpose)
    rw [sub_add_cancel, f0] at t
    linarith
  have f2 : frob X1 ≤ (1 + ε) * frob X := by
    have t := frob_add_le (X1 - G.transpose * X) (G.transpose * X)
    rw [sub_add_cancel, frob_orth_mul hG'] at t
    linarith
  have e1 : X2 - (P * G).transpose * B * (H * Q).transpose =
      (X2 - X1 * H.transpose) + ((X1 - G.transpose * X) * H.transpose + G.transpose * (X - P.transpose * B * Q.transpose) * H.transpose) := by
    simp only [Matrix.transpose_mul, Matrix.sub_mul, Matrix.mul_sub, Matrix.mul_assoc]
    abel
  rw [e1]
  refine (frob_add_le _ _).trans ?_
  have t := frob_add_le ((X1 - G.transpose * X) * H.transpose) (G.transpose * (X - P.transpose * B * Q.transpose) * H.transpose)
  rw [frob_mul_orth hH', frob_mul_orth hH', frob_orth_mul hG'] at t
  have g1 := mul_le_mul_of_nonneg_left f1 hε
  have g2 := mul_le_mul_of_nonneg_left f2 hε
  have g3 := mul_le_mul_of_nonneg_left g1 hε
  nlinarith

theorem rot2_transpose_norm (c s : ℝ) {det : ℝ} (hd : |det| = 1) (p q : Fin r) (hpq : p ≠ q) :
    embed2 p q (rot2 (c / Real.sqrt (c ^ 2 + (-det * s) ^ 2)) (-det * s / Real.sqrt (c ^ 2 + (-det * s) ^ 2)) det) =
      (embed2 p q (rot2 (c / Real.sqrt (c ^ 2 + s ^ 2)) (s / Real.sqrt (c ^ 2 + s ^ 2)) det)).transpose := by
  have hd2 : det ^ 2 = 1 := by rw [← sq_abs, hd, one_pow]
  have e : (-det * s) ^ 2 = s ^ 2 := by rw [mul_pow, neg_sq, hd2, one_mul]
  rw [e]
  have t1 := rot2_conjTranspose (c / Real.sqrt (c ^ 2 + s ^ 2)) (s / Real.sqrt (c ^ 2 + s ^ 2)) det (by rw [Real.norm_eq_abs]; exact hd)
  have t2 := embed2_conjTranspose p q hpq (rot2 (c / Real.sqrt (c ^ 2 + s ^ 2)) (s / Real.sqrt (c ^ 2 + s ^ 2)) det)
  rw [← t1, Matrix.conjTranspose_eq_transpose_of_trivial] at t2
  rw [t2]
  simp only [star_trivial, mul_div_assoc]

theorem givensRight_rep (h : Rounding fl u) {ps : ℝ → ℝ → ℝ → ℝ → ℝ} (hps : IsProdSum fl ps) (pd : ℝ → ℝ → ℝ → ℝ → ℝ) {M : Matrix (Fin r) (Fin n) ℝ}
    (p q : Fin n) (c s det : ℝ) (hM : ∀ i j, fl (M i j) = M i j) (i : Fin r) (j : Fin n) :
    fl (givensRight fl ps pd M p q c s det i j) = givensRight fl ps pd M p q c s det i j := by
  unfold givensRight
  simp only [Matrix.of_apply]
  split
  · exact h.idem _
  · split
    · exact ps_idem h hps _ _ _ _
    · exact hM i j

theorem givensLeft_rep (h : Rounding fl u) {ps pd : ℝ → ℝ → ℝ → ℝ → ℝ} (hps : IsProdSum fl ps) (hpd : IsProdDiff fl pd) {M : Matrix (Fin r) (Fin n) ℝ}
    (p q : Fin r) (c s det : ℝ) (hM : ∀ i j, fl (M i j) = M i j) (i : Fin r) (j : Fin n) :
    fl (givensLeft fl ps pd M p q c s det i j) = givensLeft fl ps pd M p q c s det i j := by
  unfold givensLeft
  simp only [Matrix.of_apply]
  split
  · exact ps_idem h hps _ _ _ _
  · split
    · rcases hpd (M p j) c (fl (det * M q j)) s with e | e | e <;> rw [e, h.idem]
    · exact hM i j

theorem TwoErr.rotate (h : Rounding fl u) (h1 : fl 1 = 1) (hu1 : u < 1) {ps pd : ℝ → ℝ → ℝ → ℝ → ℝ} (hps : IsProdSum fl ps) (hpd : IsProdDiff fl pd)
    {hyp : ℝ → ℝ → ℝ → ℝ} (hh : IsHypot w hyp) (hw : 0 ≤ w) (hw1 : w < 1) (hη : twoErr u w < 1) (zs : ZeroSigns ℝ)
    {B : Matrix (Fin r) (Fin r) ℝ} {c : ℕ} {s : TwoState ℝ r} {k : ℕ} {P Q : Matrix (Fin r) (Fin r) ℝ}
    (e : TwoErr fl (rotErr u (twoErr u w)) B c s k P Q) (p q : Fin r) (hpq : p < q) (hne : s.X p q ≠ 0 ∨ s.X q p ≠ 0) :
    ∃ P Q, TwoErr fl (rotErr u (twoErr u w)) B c (twoRotate fl ps pd hyp zs p q s) (k + 1) P Q := by
  have hpq' : p ≠ q := ne_of_lt hpq
  have hpv : p.val < q.val := hpq
  have hz := fl_zero h
  have hK := svd2_unit h h1 hu1 hps pd hh hw hw1 hη zs (s.X p p) (s.X p q) (s.X q p) (s.X q q)
  have hcase : q.val < c ∨ ((decomposeSVD2 fl ps pd hyp zs (s.X p p) (s.X p q) (s.X q p) (s.X q q)).cv = 1 ∧
      (decomposeSVD2 fl ps pd hyp zs (s.X p p) (s.X p q) (s.X q p) (s.X q q)).sv = 0) := by
    by_cases hq : q.val < c
    · exact Or.inl hq
    · right
      have e1 := e.cols p q (not_lt.1 hq)
      have e2 := e.cols q q (not_lt.1 hq)
      rw [e1, e2]
      exact svd2_tall h h1 hu1 hps hpd hyp zs _ _ (hne.resolve_left (not_not.2 e1))
  unfold twoRotate
  simp only
  generalize decomposeSVD2 fl ps pd hyp zs (s.X p p) (s.X p q) (s.X q p) (s.X q q) = d at *
  obtain ⟨kl, kr, kd, ke⟩ := hK
  rw [ke]
  set ε := rotErr u (twoErr u w) with hεd
  have hε : 0 ≤ ε := rotErr_nonneg h kl.nonneg
  have kl' : NearUnit (twoErr u w) d.cu (-d.det * d.su) := by
    have hd2 : d.det ^ 2 = 1 := by rw [← sq_abs, kd, one_pow]
    unfold NearUnit at *
    rwa [mul_pow, neg_sq, hd2, one_mul]
  have kr' : NearUnit (twoErr u w) d.cv (-d.sv) := by unfold NearUnit at *; rwa [neg_sq]
  have hG := rotation_orthogonal hη kl kd p q hpq'
  have hH := rotation_orthogonal hη kr (abs_one (α := ℝ)) p q hpq'
  have gU := fun i => givensRight_err h hps hpd hη kl kd s.U p q hpq' i
  have gV := fun j => givensLeft_err h hps hpd hη kr abs_one s.V p q hpq' j
  have gX1 := fun j => givensLeft_err h hps hpd hη kl' kd s.X p q hpq' j
  set X1 := givensLeft fl ps pd s.X p q d.cu (-d.det * d.su) d.det with hX1
  have gX2 := fun i => givensRight_err h hps hpd hη kr' abs_one X1 p q hpq' i
  rw [rot2_transpose_norm _ _ kd p q hpq'] at gX1
  have et := rot2_transpose_norm d.cv d.sv (abs_one (α := ℝ)) p q hpq'
  rw [neg_one_mul] at et
  rw [et] at gX2
  have hone : d.cv = 1 → d.sv = 0 → embed2 p q (rot2 (d.cv / Real.sqrt (d.cv ^ 2 + d.sv ^ 2)) (d.sv / Real.sqrt (d.cv ^ 2 + d.sv ^ 2)) 1) = (1 : Matrix (Fin r) (Fin r) ℝ) := by
    intro a b
    rw [a, b, ← embed2_one p q]
    congr 1
    ext i j
    fin_cases i <;> fin_cases j <;> simp [rot2]
  have hHq : ∀ i j : Fin r, q.val < c → (c ≤ i.val ∨ c ≤ j.val) → (embed2 p q (rot2 (d.cv / Real.sqrt (d.cv ^ 2 + d.sv ^ 2)) (d.sv / Real.sqrt (d.cv ^ 2 + d.sv ^ 2)) 1) * Q) i j =
      if i = j then 1 else 0 := by
    intro i j hq hij
    rw [embed2_mul _ p q hpq']
    by_cases hi : c ≤ i.val
    · rw [if_neg (by rintro rfl; omega), if_neg (by rintro rfl; omega)]; exact e.blockQ i j (Or.inl hi)
    · have hj : c ≤ j.val := hij.resolve_left hi
      have hpj : p ≠ j := by rintro rfl; omega
      have hqj : q ≠ j := by rintro rfl; omega
      rw [e.blockQ p j (Or.inr hj), e.blockQ q j (Or.inr hj), if_neg hpj, if_neg hqj, e.blockQ i j (Or.inr hj)]
      have hij' : i ≠ j := by rintro rfl; omega
      simp [hij']
  generalize embed2 p q (rot2 (d.cv / Real.sqrt (d.cv ^ 2 + d.sv ^ 2)) (d.sv / Real.sqrt (d.cv ^ 2 + d.sv ^ 2)) 1) = H at *
  generalize embed2 p q (rot2 (d.cu / Real.sqrt (d.cu ^ 2 + d.su ^ 2)) (d.su / Real.sqrt (d.cu ^ 2 + d.su ^ 2)) d.det) = G at *
  refine ⟨P * G, H * Q, ?_, ?_, ?_, ?_, ?_, ?_, ?_, ?_, ?_⟩
  · rw [Matrix.transpose_mul, Matrix.mul_assoc, ← Matrix.mul_assoc P.transpose, e.unitP, Matrix.one_mul, hG]
  · rw [Matrix.transpose_mul, Matrix.mul_assoc, ← Matrix.mul_assoc H.transpose, hH, Matrix.one_mul, e.unitQ]
  · intro i
    rw [pow_succ]
    exact step_row hε hG e.unitP (e.U i) (gU i)
  · intro j
    rw [pow_succ]
    exact step_col' hε hH e.unitQ (e.V j) (gV j)
  · rw [show 2 * (k + 1) = 2 * k + 2 by ring, pow_add]
    refine step_mid hε hG hH e.unitP e.unitQ e.X (X1 := X1) ?_ ?_
    · exact frob_cols_le hε gX1
    · exact frob_rows_le hε gX2
  · intro i j hj
    have hz1 : ∀ i j : Fin r, c ≤ j.val → X1 i j = 0 := by
      intro i j hj
      rw [hX1]
      unfold givensLeft
      simp only [Matrix.of_apply, e.cols _ j hj, mul_zero, hz]
      split
      · rw [ps_exact h hps (by simp [hz]) (by simp)]; simp
      · split
        · rw [pd_exact h hpd (by simp [hz]) (by simp)]; simp
        · rfl
    unfold givensRight
    simp only [Matrix.of_apply]
    rcases hcase with hq | ⟨c1, c2⟩
    · rw [if_neg (by rintro rfl; omega), if_neg (by rintro rfl; omega)]
      exact hz1 i j hj
    · split
      · rename_i hjq
        rw [c1, c2, hjq.symm, hz1 i j hj, pd_exact h hpd (by simp [hz]) (by simp)]; simp [hz]
      · split
        · rename_i hjp
          rw [c1, c2, hjp.symm, hz1 i j hj, ps_exact h hps (by simp [hz]) (by simp)]; simp
        · exact hz1 i j hj
  · intro i j hij
    unfold givensLeft
    simp only [Matrix.of_apply]
    rcases hcase with hq | ⟨c1, c2⟩
    · have hpc : p.val < c := lt_trans hpv hq
      by_cases hi : c ≤ i.val
      · rw [if_neg (by rintro rfl; omega), if_neg (by rintro rfl; omega)]; exact e.blockV i j (Or.inl hi)
      · have hj : c ≤ j.val := hij.resolve_left hi
        have hpj : p ≠ j := by rintro rfl; omega
        have hqj : q ≠ j := by rintro rfl; omega
        rw [e.blockV p j (Or.inr hj), e.blockV q j (Or.inr hj), if_neg hpj, if_neg hqj, e.blockV i j (Or.inr hj)]
        have hij' : i ≠ j := by rintro rfl; omega
        rw [mul_zero, hz, if_neg hij', ps_exact h hps (by simp [hz]) (by simp), pd_exact h hpd (by simp [hz]) (by simp)]
        simp
    · have hb := e.blockV i j hij
      have hf : fl (s.V i j) = s.V i j := by rw [hb]; split <;> assumption
      rw [c1, c2, ← hb, one_mul]
      split
      · rename_i hiq
        rw [← hiq, hf, ps_exact h hps (by rw [mul_one, hf]) (by simp), mul_one]
      · split
        · rename_i hip
          rw [← hip, pd_exact h hpd (by rw [mul_one, hf]) (by simp), mul_one]
        · rfl
  · intro i j hij
    rcases hcase with hq | ⟨c1, c2⟩
    · exact hHq i j hq hij
    · rw [hone c1 c2, Matrix.one_mul]; exact e.blockQ i j hij
  · exact givensRight_rep h hps pd p q _ _ _ (givensLeft_rep h hps hpd p q _ _ _ e.rep)

theorem twoSweep_err (h : Rounding fl u) (h1 : fl 1 = 1) (hu1 : u < 1) {ps pd : ℝ → ℝ → ℝ → ℝ → ℝ} (hps : IsProdSum fl ps) (hpd : IsProdDiff fl pd)
    {hyp : ℝ → ℝ → ℝ → ℝ} (hh : IsHypot w hyp) (hw : 0 ≤ w) (hw1 : w < 1) (hη : twoErr u w < 1) {tol : ℝ} (htol : 0 ≤ tol)
    (zs : ℕ → Fin r → Fin r → ZeroSigns ℝ) (t : ℕ) {B : Matrix (Fin r) (Fin r) ℝ} {c : ℕ} {s : TwoState ℝ r} {k : ℕ}
    (e : ∃ P Q, TwoErr fl (rotErr u (twoErr u w)) B c s k P Q) :
    ∃ P Q, TwoErr fl (rotErr u (twoErr u w)) B c (twoSweep fl ps pd hyp tol zs t s).1 (k + r * (r - 1) / 2) P Q := by
  refine pairs_count (fun k (s : TwoState ℝ r × ℝ) => ∃ P Q, TwoErr fl (rotErr u (twoErr u w)) B c s.1 k P Q) k e ?_
  rintro k p q s hpq ⟨P, Q, hP⟩
  unfold twoStep
  simp only
  split
  · rename_i hgt
    refine hP.rotate h h1 hu1 hps hpd hh hw hw1 hη (zs t p q) p q hpq ?_
    by_contra hc
    push Not at hc
    rw [hc.1, hc.2, abs_zero, max_self] at hgt
    exact absurd hgt (not_lt.2 htol)
  · exact ⟨P, Q, hP.mono (rotErr_nonneg h ((unitErr_nonneg h hu1).trans (unitErr_le_twoErr h hu1 hw hw1))) (Nat.le_succ k)⟩

theorem two_err (h : Rounding fl u) (h1 : fl 1 = 1) (hu1 : u < 1) {ps pd : ℝ → ℝ → ℝ → ℝ → ℝ} (hps : IsProdSum fl ps) (hpd : IsProdDiff fl pd)
    {hyp : ℝ → ℝ → ℝ → ℝ} (hh : IsHypot w hyp) (hw : 0 ≤ w) (hw1 : w < 1) (hη : twoErr u w < 1) {tol : ℝ} (htol : 0 ≤ tol)
    (zs : ℕ → Fin r → Fin r → ZeroSigns ℝ) (A : Matrix (Fin r) (Fin (n + 1)) ℝ) (sc : ℝ) (fuel : ℕ) (prev err : ℝ) (x : TwoState ℝ r × ℝ)
    (hx : jacobiLoop (twoSweep fl ps pd hyp tol zs) fuel 0 prev err (twoInit fl A sc) = some x) :
    ∃ P Q, TwoErr fl (rotErr u (twoErr u w)) (twoInit fl A sc).X (n + 1) x.1 (fuel * (r * (r - 1) / 2)) P Q := by
  have hε := rotErr_nonneg h ((unitErr_nonneg h hu1).trans (unitErr_le_twoErr h hu1 hw hw1))
  have := jacobiLoop_count (fun k s => ∃ P Q, TwoErr fl (rotErr u (twoErr u w)) (twoInit fl A sc).X (n + 1) s k P Q) (r * (r - 1) / 2)
    (fun k t s hs => twoSweep_err h h1 hu1 hps hpd hh hw hw1 hη htol zs t hs)
    (fun k l s hkl hs => by obtain ⟨P, Q, hP⟩ := hs; exact ⟨P, Q, hP.mono hε hkl⟩) fuel 0 0 prev err _ x
    ⟨1, 1, by simp, by simp, fun i => by simp [twoInit, norm2_zero], fun j => by simp [twoInit, norm2_zero], by simp [frob], ?_, ?_, ?_, ?_⟩ hx
  · rwa [Nat.zero_add] at this
  · intro i j hj
    simp only [twoInit, Matrix.of_apply]
    rw [dif_neg (not_lt.2 hj)]
  · intro i j _
    simp [twoInit, Matrix.one_apply]
  · intro i j _
    simp [Matrix.one_apply]
  · intro i j
    unfold twoInit
    simp only [Matrix.of_apply]
    split
    · exact h.idem _
    · exact fl_zero h

/-! ## Assembling the result -/

theorem frob_diagonal_le (X : Matrix (Fin r) (Fin r) ℝ) : frob (Matrix.diagonal fun i => X i i) ≤ frob X := by
  have := frob_le_mul (A := Matrix.diagonal fun i => X i i) (B := X) zero_le_one fun i j => by
    rw [one_mul, Matrix.diagonal_apply]
    split
    · rename_i h; rw [h]
    · rw [abs_zero]; exact abs_nonneg _
  rwa [one_mul] at this

theorem frob_off_le {X : Matrix (Fin r) (Fin r) ℝ} {θ : ℝ} (hθ0 : 0 ≤ θ) (hθ : ∀ i j, i ≠ j → |X i j| ≤ θ) :
    frob ((Matrix.diagonal fun i => X i i) - X) ≤ r * θ := by
  have h1 : ∀ i, norm2 (((Matrix.diagonal fun i => X i i) - X) i) ≤ Real.sqrt r * θ := fun i => norm2_le_sqrt hθ0 fun j => by
    rw [Matrix.sub_apply, Matrix.diagonal_apply]
    split
    · rename_i h; rw [h, sub_self, abs_zero]; exact hθ0
    · rename_i h; rw [zero_sub, abs_neg]; exact hθ i j h
  have := frob_le_sqrt (by positivity) h1
  rwa [← mul_assoc, Real.mul_self_sqrt (Nat.cast_nonneg r)] at this

theorem two_assemble {κ κ2 θ sc : ℝ} (hu : 0 ≤ u) (hκ : 0 ≤ κ) (hκ2 : 0 ≤ κ2) (hθ0 : 0 ≤ θ) (hsc : 0 < sc) {U V X A B P Q : Matrix (Fin r) (Fin r) ℝ} {S : Fin r → ℝ}
    (hP : P.transpose * P = 1) (hQ : Q.transpose * Q = 1) (hU : ∀ i, norm2 (fun j => U i j - P i j) ≤ κ) (hV : ∀ j, norm2 (fun i => V i j - Q i j) ≤ κ)
    (hX : frob (X - P.transpose * B * Q.transpose) ≤ κ2 * frob B) (hθ : ∀ i j, i ≠ j → |X i j| ≤ θ)
    (hS : ∀ i, |S i - X i i * sc| ≤ u * |X i i * sc|) (hB : frob (sc • B - A) ≤ u * frob A) :
    frob (U * Matrix.diagonal S * V - A) ≤ ((1 + u) ^ 2 * (1 + κ2) * (1 + Real.sqrt r * κ) ^ 2 - 1) * frob A + r * θ * sc := by
  have hP' : P.transpose.transpose * P.transpose = 1 := by rw [Matrix.transpose_transpose]; exact mul_eq_one_comm.1 hP
  have hQ1 : Q * Q.transpose = 1 := mul_eq_one_comm.1 hQ
  have hQ' : Q.transpose * Q.transpose.transpose = 1 := by rw [Matrix.transpose_transpose]; exact hQ
  have hP1 : P * P.transpose = 1 := mul_eq_one_comm.1 hP
  set D := Matrix.diagonal fun i => X i i with hD
  set a := frob A
  set b := frob B
  have ha : 0 ≤ a := frob_nonneg _
  have hb : 0 ≤ b := frob_nonneg _
  set l := Real.sqrt r * κ with hl
  have hl0 : 0 ≤ l := by positivity
  have eU : frob (U - P) ≤ l := frob_le_sqrt hκ hU
  have eV : frob (V - Q) ≤ l := by rw [← frob_transpose]; exact frob_le_sqrt hκ hV
  have k1 : sc * b ≤ (1 + u) * a := by
    have t := frob_add_le (sc • B - A) A
    rw [sub_add_cancel, frob_smul, abs_of_pos hsc] at t
    linarith
  have k2 : frob X ≤ (1 + κ2) * b := by
    have t := frob_add_le (X - P.transpose * B * Q.transpose) (P.transpose * B * Q.transpose)
    rw [sub_add_cancel, frob_mul_orth hQ', frob_orth_mul hP'] at t
    linarith
  have k3 : frob D ≤ (1 + κ2) * b := (frob_diagonal_le X).trans k2
  have k4 : frob (Matrix.diagonal S - sc • D) ≤ u * (sc * frob D) := by
    rw [← abs_of_pos hsc, ← frob_smul, abs_of_pos hsc]
    refine frob_le_mul hu fun i j => ?_
    rw [hD, Matrix.sub_apply, Matrix.smul_apply, Matrix.diagonal_apply, Matrix.diagonal_apply]
    split
    · have := hS i
      rwa [mul_comm (X i i)] at this
    · simp
  have k5 : sc * frob D ≤ (1 + κ2) * ((1 + u) * a) := by
    have t1 := mul_le_mul_of_nonneg_left k3 hsc.le
    have t2 := mul_le_mul_of_nonneg_left k1 (by linarith : 0 ≤ 1 + κ2)
    linarith
  have k6 : frob (Matrix.diagonal S) ≤ (1 + u) * ((1 + κ2) * ((1 + u) * a)) := by
    have t := frob_add_le (Matrix.diagonal S - sc • D) (sc • D)
    rw [sub_add_cancel, frob_smul, abs_of_pos hsc] at t
    have := mul_le_mul_of_nonneg_left k5 (by linarith : 0 ≤ 1 + u)
    linarith
  have hσ : 0 ≤ frob (Matrix.diagonal S) := frob_nonneg _
  have k7 : frob (Matrix.diagonal S * V) ≤ frob (Matrix.diagonal S) * (1 + l) := by
    have t := frob_add_le (Matrix.diagonal S * (V - Q)) (Matrix.diagonal S * Q)
    rw [← Matrix.mul_add, sub_add_cancel, frob_mul_orth hQ1] at t
    have := (frob_mul_le (Matrix.diagonal S) (V - Q)).trans (mul_le_mul_of_nonneg_left eV hσ)
    linarith
  have k8 : frob ((U - P) * (Matrix.diagonal S * V)) ≤ l * (frob (Matrix.diagonal S) * (1 + l)) :=
    (frob_mul_le _ _).trans (mul_le_mul eU k7 (frob_nonneg _) hl0)
  have k9 : frob (P * (Matrix.diagonal S * (V - Q))) ≤ frob (Matrix.diagonal S) * l := by
    rw [frob_orth_mul hP]
    exact (frob_mul_le _ _).trans (mul_le_mul_of_nonneg_left eV hσ)
  have e : U * Matrix.diagonal S * V - A = (U - P) * (Matrix.diagonal S * V) + (P * (Matrix.diagonal S * (V - Q)) + (P * (Matrix.diagonal S - sc • D) * Q +
      (sc • (P * (D - X) * Q) + (sc • (P * (X - P.transpose * B * Q.transpose) * Q) + (sc • B - A))))) := by
    have e1 : P * (P.transpose * B * Q.transpose) * Q = B := by
      rw [Matrix.mul_assoc P.transpose, ← Matrix.mul_assoc P, hP1, Matrix.one_mul, Matrix.mul_assoc, hQ, Matrix.mul_one]
    rw [Matrix.mul_sub P X, Matrix.sub_mul _ _ Q, e1]
    simp only [Matrix.sub_mul, Matrix.mul_sub, Matrix.mul_assoc, Matrix.smul_mul, Matrix.mul_smul, smul_sub]
    abel
  rw [e]
  have m1 := frob_add_le ((U - P) * (Matrix.diagonal S * V)) (P * (Matrix.diagonal S * (V - Q)) + (P * (Matrix.diagonal S - sc • D) * Q +
      (sc • (P * (D - X) * Q) + (sc • (P * (X - P.transpose * B * Q.transpose) * Q) + (sc • B - A)))))
  have m2 := frob_add_le (P * (Matrix.diagonal S * (V - Q))) (P * (Matrix.diagonal S - sc • D) * Q +
      (sc • (P * (D - X) * Q) + (sc • (P * (X - P.transpose * B * Q.transpose) * Q) + (sc • B - A))))
  have m3 := frob_add_le (P * (Matrix.diagonal S - sc • D) * Q) (sc • (P * (D - X) * Q) + (sc • (P * (X - P.transpose * B * Q.transpose) * Q) + (sc • B - A)))
  have m4 := frob_add_le (sc • (P * (D - X) * Q)) (sc • (P * (X - P.transpose * B * Q.transpose) * Q) + (sc • B - A))
  have m5 := frob_add_le (sc • (P * (X - P.transpose * B * Q.transpose) * Q)) (sc • B - A)
  rw [frob_mul_orth hQ1, frob_orth_mul hP] at m3
  rw [frob_smul, frob_mul_orth hQ1, frob_orth_mul hP, abs_of_pos hsc] at m4 m5
  have n1 := mul_le_mul_of_nonneg_left (frob_off_le hθ0 hθ) hsc.le
  have n2 := mul_le_mul_of_nonneg_left hX hsc.le
  have n3 := mul_le_mul_of_nonneg_left k1 hκ2
  have n4 := mul_le_mul_of_nonneg_left k5 hu
  have n5 := mul_le_mul_of_nonneg_left k6 (by nlinarith : 0 ≤ l * (1 + l) + l)
  have E : ((1 + u) ^ 2 * (1 + κ2) * (1 + l) ^ 2 - 1) * a = (l * (1 + l) + l) * ((1 + u) * ((1 + κ2) * ((1 + u) * a))) + u * ((1 + κ2) * ((1 + u) * a)) +
      κ2 * ((1 + u) * a) + u * a := by ring
  rw [E]
  linarith

/-! ## The end of the loop -/

theorem twoSweep_quiet {ps pd : ℝ → ℝ → ℝ → ℝ → ℝ} {hyp : ℝ → ℝ → ℝ → ℝ} (tol : ℝ) (h0 : 0 ≤ tol) (zs : ℕ → Fin r → Fin r → ZeroSigns ℝ) (t : ℕ) (s s' : TwoState ℝ r)
    (h : twoSweep fl ps pd hyp tol zs t s = (s', 0)) : s' = s ∧ ∀ i j : Fin r, i ≠ j → |s'.X i j| ≤ tol := by
  have := pairs_inv' (n := r) (body := fun p q x => twoStep fl ps pd hyp tol (zs t p q) p q x) (s := (s, (0 : ℝ)))
    (fun x => 0 ≤ x.2 ∧ (x.2 = 0 → x.1 = s))
    (fun p q x => x.2 = 0 → max |s.X p q| |s.X q p| ≤ tol) ⟨le_refl _, fun _ => rfl⟩
    (by
      rintro p q ⟨x, e⟩ _ ⟨he, hx⟩
      simp only at he hx
      unfold twoStep
      simp only
      split
      · rename_i hgt
        have hpos : 0 < max e (max |x.X p q| |x.X q p|) := lt_max_of_lt_right (lt_of_le_of_lt h0 hgt)
        exact ⟨⟨hpos.le, fun h => absurd h hpos.ne'⟩, fun h => absurd h hpos.ne'⟩
      · rename_i hgt
        refine ⟨⟨he, hx⟩, fun h => ?_⟩
        rw [hx h] at hgt
        exact not_lt.1 hgt)
    (by
      rintro p q p' q' ⟨x, e⟩ _ _ ⟨he, _⟩ hQ
      simp only at he hQ
      unfold twoStep
      simp only
      split
      · rename_i hgt
        have hpos : 0 < max e (max |x.X p q| |x.X q p|) := lt_max_of_lt_right (lt_of_le_of_lt h0 hgt)
        exact fun h => absurd h hpos.ne'
      · exact hQ)
  change (fun x : TwoState ℝ r × ℝ => 0 ≤ x.2 ∧ (x.2 = 0 → x.1 = s)) (twoSweep fl ps pd hyp tol zs t s) ∧ _ at this
  obtain ⟨h1, h2⟩ := this
  change ∀ p q : Fin r, p < q → (twoSweep fl ps pd hyp tol zs t s).2 = 0 → _ at h2
  rw [h] at h1 h2
  have hs : s' = s := h1.2 rfl
  refine ⟨hs, ?_⟩
  intro i j hij
  rw [hs]
  rcases lt_or_gt_of_ne hij with hlt | hlt
  · exact (le_max_left _ _).trans (h2 i j hlt rfl)
  · exact (le_max_right _ _).trans (h2 j i hlt rfl)

/-- A sweep reports zero or a floating-point number above the tolerance. -/
theorem twoSweep_error {ps pd : ℝ → ℝ → ℝ → ℝ → ℝ} (h : Rounding fl u) (hps : IsProdSum fl ps) (hpd : IsProdDiff fl pd) {hyp : ℝ → ℝ → ℝ → ℝ}
    (tol : ℝ) (zs : ℕ → Fin r → Fin r → ZeroSigns ℝ) (t : ℕ)
    (s : TwoState ℝ r) (hrep : ∀ i j, fl (s.X i j) = s.X i j) :
    (∀ i j, fl ((twoSweep fl ps pd hyp tol zs t s).1.X i j) = (twoSweep fl ps pd hyp tol zs t s).1.X i j) ∧
      ((twoSweep fl ps pd hyp tol zs t s).2 = 0 ∨
        (fl (twoSweep fl ps pd hyp tol zs t s).2 = (twoSweep fl ps pd hyp tol zs t s).2 ∧ tol < (twoSweep fl ps pd hyp tol zs t s).2)) := by
  unfold twoSweep
  refine pairs_inv (fun x : TwoState ℝ r × ℝ => (∀ i j, fl (x.1.X i j) = x.1.X i j) ∧ (x.2 = 0 ∨ (fl x.2 = x.2 ∧ tol < x.2))) ⟨hrep, Or.inl rfl⟩ ?_
  rintro p q ⟨x, e⟩ _ ⟨hx, he⟩
  simp only at hx he
  unfold twoStep
  simp only
  split
  · rename_i hgt
    refine ⟨?_, Or.inr ⟨?_, lt_max_of_lt_right hgt⟩⟩
    · unfold twoRotate
      simp only
      exact givensRight_rep h hps pd p q _ _ _ (givensLeft_rep h hps hpd p q _ _ _ hx)
    · have habs : ∀ i j, fl |x.X i j| = |x.X i j| := by
        intro i j
        rcases abs_choice (x.X i j) with e | e <;> rw [e]
        · exact hx i j
        · rw [h.odd, hx i j]
      have he' : fl e = e := by
        rcases he with e0 | e0
        · rw [e0, fl_zero h]
        · exact e0.1
      have hm : ∀ a b, fl a = a → fl b = b → fl (max a b) = max a b := by
        intro a b ha hb
        rcases max_choice a b with e | e <;> rw [e] <;> assumption
      exact hm _ _ he' (hm _ _ (habs _ _) (habs _ _))
  · exact ⟨hx, he⟩

/-- A loop whose errors below the initial one lie in a finite set comes to an end. -/
theorem jacobiLoop_ends {σ : Type*} {sweep : ℕ → σ → σ × ℝ} (I : σ → Prop) (F : Finset ℝ) (b : ℝ) (hI : ∀ t s, I s → I (sweep t s).1)
    (hF : ∀ t s, I s → (sweep t s).2 < b → (sweep t s).2 ∈ F) : ∀ (k t : ℕ) (prev err : ℝ) (s : σ), I s → err ≤ b → (F.filter (· < err)).card ≤ k →
      ∃ x, jacobiLoop sweep (k + 2) t prev err s = some x := by
  intro k
  induction k with
  | zero =>
    intro t prev err s hs hb hc
    rw [jacobiLoop]
    split
    · have hn : ¬ (sweep t s).2 < err := by
        intro hlt
        have hm : (sweep t s).2 ∈ F.filter (· < err) := Finset.mem_filter.2 ⟨hF t s hs (hlt.trans_le hb), hlt⟩
        have := Finset.card_pos.2 ⟨_, hm⟩
        omega
      simp only
      rw [jacobiLoop, if_neg hn]
      exact ⟨_, rfl⟩
    · exact ⟨_, rfl⟩
  | succ k ih =>
    intro t prev err s hs hb hc
    rw [jacobiLoop]
    split
    · simp only
      by_cases hlt : (sweep t s).2 < err
      · have hm : (sweep t s).2 ∈ F.filter (· < err) := Finset.mem_filter.2 ⟨hF t s hs (hlt.trans_le hb), hlt⟩
        refine ih (t + 1) err (sweep t s).2 (sweep t s).1 (hI t s hs) (hlt.le.trans hb) ?_
        have : (F.filter (· < (sweep t s).2)).card < (F.filter (· < err)).card := by
          apply Finset.card_lt_card
          rw [Finset.ssubset_iff_of_subset]
          · exact ⟨_, hm, fun h => lt_irrefl _ (Finset.mem_filter.1 h).2⟩
          · intro y hy
            exact Finset.mem_filter.2 ⟨(Finset.mem_filter.1 hy).1, (Finset.mem_filter.1 hy).2.trans hlt⟩
        omega
      · rw [jacobiLoop, if_neg hlt]
        exact ⟨_, rfl⟩
    · exact ⟨_, rfl⟩

/-- More iterations do not change the result. -/
theorem jacobiLoop_fuel {σ : Type*} {sweep : ℕ → σ → σ × ℝ} : ∀ (k l t : ℕ) (prev err : ℝ) (s : σ) (x : σ × ℝ), k ≤ l →
    jacobiLoop sweep k t prev err s = some x → jacobiLoop sweep l t prev err s = some x
  | 0, _, _, _, _, _, _, _, h => by simp [jacobiLoop] at h
  | k + 1, 0, _, _, _, _, _, hkl, _ => absurd hkl (by omega)
  | k + 1, l + 1, t, prev, err, s, x, hkl, h => by
    rw [jacobiLoop] at h ⊢
    split at h
    · rename_i hlt
      rw [if_pos hlt]
      exact jacobiLoop_fuel k l (t + 1) err (sweep t s).2 (sweep t s).1 x (by omega) h
    · rename_i hlt
      rw [if_neg hlt]; exact h

/-- There are finitely many floating-point numbers between two positive bounds. -/
theorem isFloat_finite (p : ℕ) {tol : ℝ} (htol : 0 < tol) (b : ℝ) : {x : ℝ | IsFloat p x ∧ tol < x ∧ x < b}.Finite := by
  obtain ⟨k, h1, -⟩ := exists_scale p htol.ne'
  rw [abs_of_pos htol] at h1
  have h2 := two_zpow_pos k
  refine ((Finset.Icc (0 : ℤ) ⌈b / (2 : ℝ) ^ k⌉).image fun m : ℤ => (m : ℝ) * (2 : ℝ) ^ k).finite_toSet.subset ?_
  rintro x ⟨hx, hlo, hhi⟩
  have hx0 : 0 < x := htol.trans hlo
  obtain ⟨m, rfl⟩ := grid_of_isFloat (e := k) hx (h1.trans (by rw [abs_of_pos hx0]; exact hlo.le))
  rw [Finset.coe_image]
  refine ⟨m, ?_, rfl⟩
  rw [Finset.mem_coe, Finset.mem_Icc]
  constructor
  · have : (0 : ℝ) < m := pos_of_mul_pos_left hx0 h2.le
    exact_mod_cast this.le
  · have : (m : ℝ) ≤ ⌈b / (2 : ℝ) ^ k⌉ := ((lt_div_iff₀ h2).2 hhi).le.trans (Int.le_ceil _)
    exact_mod_cast this

end Mathter.Fl
