import Verif.Model.RoundedQuaternion
import Verif.Lemmas.Quaternion
import Verif.Props.RoundedReduce
import Mathlib.Tactic.NoncommRing
import Mathlib.Tactic.FinCases

/-!
# C99: rounding errors of quaternion products and rotations

The errors are measured in the norm of Mathlib's quaternions, relative to the exact product or the rotated vector.
-/

namespace Mathter.Props
open Mathter Red Quat
open scoped Quaternion
variable {l l1 l2 : QLayout} {fl : ℝ → ℝ} {u : ℝ}

private theorem fl_zero (h : Rounding fl u) : fl 0 = 0 := by simpa using h.err 0

/-- A sum of four rounded products, added from left to right. -/
private theorem sum_four (h : Rounding fl u) (x0 x1 x2 x3 : ℝ) :
    |fl (fl (fl (fl x0 + fl x1) + fl x2) + fl x3) - (x0 + x1 + x2 + x3)| ≤ ((1 + u) ^ 4 - 1) * (|x0| + |x1| + |x2| + |x3|) := by
  have hu := h.u_nonneg
  have e : ∀ k : ℕ, 1 ≤ k → ((1 + u) * ((1 + u) ^ k - 1) + u ≤ (1 + u) ^ (k + 1) - 1) ∧ ((1 + u) * u + u ≤ (1 + u) ^ (k + 1) - 1) := by
    intro k hk
    have : (1 + u) ^ 1 ≤ (1 + u) ^ k := pow_le_pow_right₀ (by linarith) hk
    rw [pow_one] at this
    rw [pow_succ]
    constructor <;> nlinarith
  have h1 := add_err (gl := (1 + u) ^ 1 - 1) (g := (1 + u) ^ 2 - 1) hu (by simpa using h.err x0) (h.err x1) le_rfl le_rfl (e 1 le_rfl).1 (e 1 le_rfl).2
    (h.err (fl x0 + fl x1))
  have h2 := add_err (g := (1 + u) ^ 3 - 1) hu h1 (h.err x2) (abs_add_le _ _) le_rfl (e 2 (by norm_num)).1 (e 2 (by norm_num)).2 (h.err _)
  exact add_err (g := (1 + u) ^ 4 - 1) hu h2 (h.err x3) ((abs_add_le _ _).trans (add_le_add (abs_add_le _ _) le_rfl)) le_rfl (e 3 (by norm_num)).1
    (e 3 (by norm_num)).2 (h.err _)

private theorem fl_neg_mul (h : Rounding fl u) {x : ℝ} (hx : fl x = x) (y : ℝ) : fl (fl (-1 * x) * y) = fl (-(x * y)) := by
  rw [neg_one_mul, h.odd, hx, neg_mul]

private theorem fl_one_mul {x : ℝ} (hx : fl x = x) (y : ℝ) : fl (fl (1 * x) * y) = fl (x * y) := by
  rw [one_mul, hx]

/-- The elements of the computed product. -/
theorem qmul_canonical (h : Rounding fl u) (p : Quat ℝ l1) (q : Quat ℝ l2) (hp : ∀ t, fl (p.canonical t) = p.canonical t) :
    (Fl.qmul fl p q).s = fl (fl (fl (fl (p.s * q.s) + fl (-(p.i * q.i))) + fl (-(p.j * q.j))) + fl (-(p.k * q.k))) ∧
    (Fl.qmul fl p q).i = fl (fl (fl (fl (p.s * q.i) + fl (p.i * q.s)) + fl (p.j * q.k)) + fl (-(p.k * q.j))) ∧
    (Fl.qmul fl p q).j = fl (fl (fl (fl (p.s * q.j) + fl (-(p.i * q.k))) + fl (p.j * q.s)) + fl (p.k * q.i)) ∧
    (Fl.qmul fl p q).k = fl (fl (fl (fl (p.s * q.k) + fl (p.i * q.j)) + fl (-(p.j * q.i))) + fl (p.k * q.s)) := by
  have hi : fl p.i = p.i := hp 1
  have hj : fl p.j = p.j := hp 2
  have hk : fl p.k = p.k := hp 3
  have n := fun {x : ℝ} (hx : fl x = x) y => fl_neg_mul h hx y
  have o := fun {x : ℝ} (hx : fl x = x) y => fl_one_mul hx y
  refine ⟨?_, ?_, ?_, ?_⟩
  · rw [s_eq, Fl.qmul, canonical_ofCanonical, ← n hi, ← n hj, ← n hk]; rfl
  · rw [i_eq, Fl.qmul, canonical_ofCanonical, ← o hi, ← o hj, ← n hk]; rfl
  · rw [j_eq, Fl.qmul, canonical_ofCanonical, ← n hi, ← o hj, ← o hk]; rfl
  · rw [k_eq, Fl.qmul, canonical_ofCanonical, ← o hi, ← n hj, ← o hk]; rfl

theorem cauchy4 (a b c d x y z w : ℝ) : |a * x| + |b * y| + |c * z| + |d * w| ≤
    Real.sqrt (a ^ 2 + b ^ 2 + c ^ 2 + d ^ 2) * Real.sqrt (x ^ 2 + y ^ 2 + z ^ 2 + w ^ 2) := by
  rw [← Real.sqrt_mul (by positivity)]
  apply Real.le_sqrt_of_sq_le
  simp only [abs_mul]
  rw [← sq_abs a, ← sq_abs b, ← sq_abs c, ← sq_abs d, ← sq_abs x, ← sq_abs y, ← sq_abs z, ← sq_abs w]
  generalize |a| = a; generalize |b| = b; generalize |c| = c; generalize |d| = d
  generalize |x| = x; generalize |y| = y; generalize |z| = z; generalize |w| = w
  nlinarith [sq_nonneg (a * y - b * x), sq_nonneg (a * z - c * x), sq_nonneg (a * w - d * x), sq_nonneg (b * z - c * y), sq_nonneg (b * w - d * y),
    sq_nonneg (c * w - d * z)]

theorem norm_eq (q : ℍ[ℝ]) : ‖q‖ = Real.sqrt (q.re ^ 2 + q.imI ^ 2 + q.imJ ^ 2 + q.imK ^ 2) := by
  rw [← Quaternion.normSq_def', Quaternion.normSq_eq_norm_mul_self, Real.sqrt_mul_self (norm_nonneg _)]

theorem norm_le_two {q : ℍ[ℝ]} {B : ℝ} (hB : 0 ≤ B) (h0 : |q.re| ≤ B) (h1 : |q.imI| ≤ B) (h2 : |q.imJ| ≤ B) (h3 : |q.imK| ≤ B) : ‖q‖ ≤ 2 * B := by
  rw [norm_eq]
  apply Real.sqrt_le_iff.2 ⟨by linarith, ?_⟩
  have := sq_le_sq' (abs_le.1 h0).1 (abs_le.1 h0).2
  have := sq_le_sq' (abs_le.1 h1).1 (abs_le.1 h1).2
  have := sq_le_sq' (abs_le.1 h2).1 (abs_le.1 h2).2
  have := sq_le_sq' (abs_le.1 h3).1 (abs_le.1 h3).2
  nlinarith

/-- C99: every element of the product of two quaternions of floats is off by at most four rounding errors relative to the product of the norms. -/
theorem C99_mul_elements (h : Rounding fl u) (p : Quat ℝ l1) (q : Quat ℝ l2) (hp : ∀ t, fl (p.canonical t) = p.canonical t) :
    |(Fl.qmul fl p q).s - (toH p * toH q).re| ≤ ((1 + u) ^ 4 - 1) * (‖toH p‖ * ‖toH q‖) ∧
    |(Fl.qmul fl p q).i - (toH p * toH q).imI| ≤ ((1 + u) ^ 4 - 1) * (‖toH p‖ * ‖toH q‖) ∧
    |(Fl.qmul fl p q).j - (toH p * toH q).imJ| ≤ ((1 + u) ^ 4 - 1) * (‖toH p‖ * ‖toH q‖) ∧
    |(Fl.qmul fl p q).k - (toH p * toH q).imK| ≤ ((1 + u) ^ 4 - 1) * (‖toH p‖ * ‖toH q‖) := by
  have hu := h.u_nonneg
  have hg : 0 ≤ (1 + u) ^ 4 - 1 := by have : (1 : ℝ) ≤ (1 + u) ^ 4 := one_le_pow₀ (by linarith); linarith
  obtain ⟨e0, e1, e2, e3⟩ := qmul_canonical h p q hp
  rw [e0, e1, e2, e3, norm_eq, norm_eq, Quaternion.re_mul, Quaternion.imI_mul, Quaternion.imJ_mul, Quaternion.imK_mul]
  simp only [re_toH, imI_toH, imJ_toH, imK_toH]
  clear e0 e1 e2 e3
  generalize p.s = a at *; generalize p.i = b at *; generalize p.j = c at *; generalize p.k = d at *
  generalize q.s = x at *; generalize q.i = y at *; generalize q.j = z at *; generalize q.k = w at *
  refine ⟨?_, ?_, ?_, ?_⟩
  · have k := sum_four h (a * x) (-(b * y)) (-(c * z)) (-(d * w))
    rw [abs_neg, abs_neg, abs_neg] at k
    refine (le_of_eq ?_).trans (k.trans (mul_le_mul_of_nonneg_left (cauchy4 a b c d x y z w) hg))
    congr 1
  · have k := sum_four h (a * y) (b * x) (c * w) (-(d * z))
    rw [abs_neg] at k
    refine (le_of_eq ?_).trans (k.trans (mul_le_mul_of_nonneg_left ((cauchy4 a b c d y x w z).trans (le_of_eq ?_)) hg))
    · congr 1
    · congr 2; ring
  · have k := sum_four h (a * z) (-(b * w)) (c * x) (d * y)
    rw [abs_neg] at k
    refine (le_of_eq ?_).trans (k.trans (mul_le_mul_of_nonneg_left ((cauchy4 a b c d z w x y).trans (le_of_eq ?_)) hg))
    · congr 1
    · congr 2; ring
  · have k := sum_four h (a * w) (b * z) (-(c * y)) (d * x)
    rw [abs_neg] at k
    refine (le_of_eq ?_).trans (k.trans (mul_le_mul_of_nonneg_left ((cauchy4 a b c d w z y x).trans (le_of_eq ?_)) hg))
    · congr 1
    · congr 2; ring

/-- C99: the product of two quaternions of floats, in norm. -/
theorem C99_mul (h : Rounding fl u) (p : Quat ℝ l1) (q : Quat ℝ l2) (hp : ∀ t, fl (p.canonical t) = p.canonical t) :
    ‖toH (Fl.qmul fl p q) - toH p * toH q‖ ≤ 2 * ((1 + u) ^ 4 - 1) * (‖toH p‖ * ‖toH q‖) := by
  have hu := h.u_nonneg
  have hg : 0 ≤ (1 + u) ^ 4 - 1 := by have : (1 : ℝ) ≤ (1 + u) ^ 4 := one_le_pow₀ (by linarith); linarith
  obtain ⟨e0, e1, e2, e3⟩ := C99_mul_elements h p q hp
  rw [mul_assoc]
  refine norm_le_two (by positivity) ?_ ?_ ?_ ?_
  · rwa [Quaternion.re_sub]
  · rwa [Quaternion.imI_sub]
  · rwa [Quaternion.imJ_sub]
  · rwa [Quaternion.imK_sub]

theorem quot_err (h : Rounding fl u) {x L M g : ℝ} (hL : 0 < L) (hg : g < 1) (hM : |M - L| ≤ g * L) :
    |fl (x / M) - x / L| ≤ (u + g) / (1 - g) * |x / L| := by
  have hu := h.u_nonneg
  obtain ⟨m1, m2⟩ := abs_le.1 hM
  have hg0 : 0 ≤ g := by
    by_contra hc
    have := (abs_nonneg _).trans hM
    nlinarith
  have hM0 : 0 < M := by nlinarith
  have e := h.err (x / M)
  have hq : |x / M| ≤ |x / L| / (1 - g) := by
    rw [abs_div, abs_div, abs_of_pos hM0, abs_of_pos hL, div_div]
    exact div_le_div_of_nonneg_left (abs_nonneg _) (by nlinarith) (by nlinarith)
  have hd : |x / M - x / L| ≤ g * (|x / L| / (1 - g)) := by
    have : x / M - x / L = x / M * ((L - M) / L) := by field_simp
    rw [this, abs_mul, mul_comm]
    refine mul_le_mul ?_ hq (abs_nonneg _) hg0
    rw [abs_div, abs_of_pos hL, div_le_iff₀ hL, abs_sub_comm]
    exact hM
  calc |fl (x / M) - x / L| ≤ |fl (x / M) - x / M| + |x / M - x / L| := abs_sub_le _ _ _
    _ ≤ u * (|x / L| / (1 - g)) + g * (|x / L| / (1 - g)) := add_le_add (e.trans (mul_le_mul_of_nonneg_left hq hu)) hd
    _ = (u + g) / (1 - g) * |x / L| := by ring

private theorem norm_le_scaled {q r : ℍ[ℝ]} {e : ℝ} (he : 0 ≤ e) (h0 : |q.re| ≤ e * |r.re|) (h1 : |q.imI| ≤ e * |r.imI|) (h2 : |q.imJ| ≤ e * |r.imJ|)
    (h3 : |q.imK| ≤ e * |r.imK|) : ‖q‖ ≤ e * ‖r‖ := by
  have key : ∀ {x y : ℝ}, |x| ≤ e * |y| → x ^ 2 ≤ e ^ 2 * y ^ 2 := by
    intro x y hxy
    rw [← sq_abs x, ← sq_abs y, ← mul_pow]
    exact pow_le_pow_left₀ (abs_nonneg _) hxy 2
  rw [norm_eq, norm_eq, show e * Real.sqrt (r.re ^ 2 + r.imI ^ 2 + r.imJ ^ 2 + r.imK ^ 2) =
    Real.sqrt (e ^ 2 * (r.re ^ 2 + r.imI ^ 2 + r.imJ ^ 2 + r.imK ^ 2)) by rw [Real.sqrt_mul (sq_nonneg _), Real.sqrt_sq he]]
  apply Real.sqrt_le_sqrt
  have := key h0
  have := key h1
  have := key h2
  have := key h3
  linarith

/-- The elements of a quaternion, in storage order or by name. -/
theorem elements_canonical (q : Quat ℝ l) (P : ℝ → Prop) : (∀ t, P (q.canonical t)) ↔ ∀ t, P (q.elements t) := by
  constructor
  · intro h t
    obtain ⟨t', rfl⟩ := canonIdx_surj l t
    exact h t'
  · intro h t
    exact h _

/-- C99: the inverse of a quaternion of floats exists unless the quaternion is zero, and each of its elements is accurate to a relative error of about nine
rounding errors. -/
theorem C99_inverse (h : Rounding fl u) (h2 : (1 + u) ^ 4 < 2) (c : Cfg) (pk conv : Bool) (tb : RTree (batchSize 4 false)) (ts : RTree (4 + 1))
    (htb : tb.Valid) (hts : ts.Valid) (q : Quat ℝ l) (hq : ∀ t, fl (q.canonical t) = q.canonical t) (h0 : toH q ≠ 0) :
    ∃ r, Fl.qinverse c pk fl conv tb ts q = some r ∧ (∀ t, fl (r.canonical t) = r.canonical t) ∧
      ‖toH r - (toH q)⁻¹‖ ≤ (u + ((1 + u) ^ 4 - 1)) / (2 - (1 + u) ^ 4) * ‖(toH q)⁻¹‖ := by
  have hu := h.u_nonneg
  have hL := C76_lengthSquared h conv tb ts htb hts (Vec.ofFn q.elements : Vec c ℝ 4 pk)
  simp only [Vec.get_ofFn] at hL
  rw [sum_elements q fun x => x ^ 2] at hL
  change |Fl.qlengthSquared c pk fl conv tb ts q - _| ≤ _ at hL
  have hn : Quaternion.normSq (toH q) = q.s ^ 2 + q.i ^ 2 + q.j ^ 2 + q.k ^ 2 := Quaternion.normSq_def' _
  rw [← hn] at hL
  have hpos : 0 < Quaternion.normSq (toH q) := lt_of_le_of_ne Quaternion.normSq_nonneg (Ne.symm (Quaternion.normSq_ne_zero.2 h0))
  have hM : Fl.qlengthSquared c pk fl conv tb ts q ≠ 0 := by
    intro e
    rw [e, zero_sub, abs_neg, abs_of_pos hpos] at hL
    nlinarith
  have hs : fl q.s = q.s := hq 0
  have hi : fl q.i = q.i := hq 1
  have hj : fl q.j = q.j := hq 2
  have hk : fl q.k = q.k := hq 3
  refine ⟨_, if_neg hM, (elements_canonical _ fun x => fl x = x).2 fun t => h.idem _, ?_⟩
  have hinv : (toH q)⁻¹ = (Quaternion.normSq (toH q))⁻¹ • star (toH q) := Quaternion.inv_def _
  have hden : (2 : ℝ) - (1 + u) ^ 4 = 1 - ((1 + u) ^ 4 - 1) := by ring
  have key := fun x : ℝ => quot_err h (x := x) hpos (by linarith : (1 + u) ^ 4 - 1 < 1) hL
  have hcs : (Fl.qconj fl q).canonical 0 = q.s := by
    rw [Fl.qconj, canonical_ofCanonical]; change fl (q.s * 1) = _; rw [mul_one, hs]
  have hci : (Fl.qconj fl q).canonical 1 = -q.i := by
    rw [Fl.qconj, canonical_ofCanonical]; change fl (q.i * -1) = _; rw [mul_neg_one, h.odd, hi]
  have hcj : (Fl.qconj fl q).canonical 2 = -q.j := by
    rw [Fl.qconj, canonical_ofCanonical]; change fl (q.j * -1) = _; rw [mul_neg_one, h.odd, hj]
  have hck : (Fl.qconj fl q).canonical 3 = -q.k := by
    rw [Fl.qconj, canonical_ofCanonical]; change fl (q.k * -1) = _; rw [mul_neg_one, h.odd, hk]
  have hone : (1 : ℝ) ≤ (1 + u) ^ 4 := one_le_pow₀ (by linarith)
  rw [hden]
  refine norm_le_scaled (div_nonneg (by linarith) (by linarith)) ?_ ?_ ?_ ?_
  · rw [Quaternion.re_sub, hinv, Quaternion.re_smul, Quaternion.re_star, smul_eq_mul, mul_comm, ← div_eq_mul_inv]
    refine le_trans (le_of_eq ?_) (key q.s)
    congr 2
    change fl ((Fl.qconj fl q).canonical 0 / _) = _
    rw [hcs]
  · rw [Quaternion.imI_sub, hinv, Quaternion.imI_smul, Quaternion.imI_star, smul_eq_mul, mul_comm, ← div_eq_mul_inv]
    refine le_trans (le_of_eq ?_) (key (-q.i))
    congr 2
    change fl ((Fl.qconj fl q).canonical 1 / _) = _
    rw [hci]
  · rw [Quaternion.imJ_sub, hinv, Quaternion.imJ_smul, Quaternion.imJ_star, smul_eq_mul, mul_comm, ← div_eq_mul_inv]
    refine le_trans (le_of_eq ?_) (key (-q.j))
    congr 2
    change fl ((Fl.qconj fl q).canonical 2 / _) = _
    rw [hcj]
  · rw [Quaternion.imK_sub, hinv, Quaternion.imK_smul, Quaternion.imK_star, smul_eq_mul, mul_comm, ← div_eq_mul_inv]
    refine le_trans (le_of_eq ?_) (key (-q.k))
    congr 2
    change fl ((Fl.qconj fl q).canonical 3 / _) = _
    rw [hck]

/-- The relative error bound of a rotation: two products and an inverse. -/
noncomputable def rotErr (u : ℝ) : ℝ :=
  (1 + 2 * ((1 + u) ^ 4 - 1)) ^ 2 * (1 + (u + ((1 + u) ^ 4 - 1)) / (2 - (1 + u) ^ 4)) - 1

/-- C99: a rotated vector differs from the exact rotation `q v q⁻¹` by at most `rotErr u` (about `25u`) times the length of the vector, also if `q`
is not a unit quaternion. -/
theorem C99_rotate (h : Rounding fl u) (h2 : (1 + u) ^ 4 < 2) (c : Cfg) (pk conv : Bool) (tb : RTree (batchSize 4 false)) (ts : RTree (4 + 1))
    (htb : tb.Valid) (hts : ts.Valid) (q : Quat ℝ l) (hq : ∀ t, fl (q.canonical t) = q.canonical t) (h0 : toH q ≠ 0) (v : Fin 3 → ℝ) :
    ∃ w, Fl.qrotate c pk fl conv tb ts q v = some w ∧ ∀ x : ℍ[ℝ], x = toH q * ⟨0, v 0, v 1, v 2⟩ * (toH q)⁻¹ →
      Real.sqrt ((w 0 - x.imI) ^ 2 + (w 1 - x.imJ) ^ 2 + (w 2 - x.imK) ^ 2) ≤ rotErr u * Real.sqrt (v 0 ^ 2 + v 1 ^ 2 + v 2 ^ 2) := by
  have hu := h.u_nonneg
  have hone : (1 : ℝ) ≤ (1 + u) ^ 4 := one_le_pow₀ (by linarith)
  obtain ⟨r, er, fr, br⟩ := C99_inverse h h2 c pk conv tb ts htb hts q hq h0
  have ev : toH (ofVec l v) = ⟨0, v 0, v 1, v 2⟩ := toH_ofVec v
  have nv : ‖toH (ofVec l v)‖ = Real.sqrt (v 0 ^ 2 + v 1 ^ 2 + v 2 ^ 2) := by
    rw [norm_eq]; simp [ev]
  have b1 := C99_mul h q (ofVec l v) hq
  have fa : ∀ t, fl ((Fl.qmul fl q (ofVec l v)).canonical t) = (Fl.qmul fl q (ofVec l v)).canonical t := by
    intro t
    rw [Fl.qmul, canonical_ofCanonical]
    exact h.idem _
  have b2 := C99_mul h (Fl.qmul fl q (ofVec l v)) r fa
  refine ⟨(Fl.qmul fl (Fl.qmul fl q (ofVec l v)) r).vec, by rw [Fl.qrotate, er]; rfl, fun x hx => ?_⟩
  have hw : Real.sqrt (((Fl.qmul fl (Fl.qmul fl q (ofVec l v)) r).vec 0 - x.imI) ^ 2 + ((Fl.qmul fl (Fl.qmul fl q (ofVec l v)) r).vec 1 - x.imJ) ^ 2 +
      ((Fl.qmul fl (Fl.qmul fl q (ofVec l v)) r).vec 2 - x.imK) ^ 2) ≤ ‖toH (Fl.qmul fl (Fl.qmul fl q (ofVec l v)) r) - x‖ := by
    rw [norm_eq]
    apply Real.sqrt_le_sqrt
    rw [vec_eq', Quaternion.re_sub, Quaternion.imI_sub, Quaternion.imJ_sub, Quaternion.imK_sub]
    simp only [re_toH, imI_toH, imJ_toH, imK_toH]
    have := sq_nonneg ((Fl.qmul fl (Fl.qmul fl q (ofVec l v)) r).s - x.re)
    simp only [Matrix.cons_val_zero, Matrix.cons_val_one, Matrix.cons_val]
    linarith
  refine hw.trans ?_
  rw [← ev] at hx
  rw [← nv, hx]
  have hqi : ‖toH q‖ * ‖(toH q)⁻¹‖ = 1 := by rw [← norm_mul, mul_inv_cancel₀ h0, norm_one]
  generalize toH (Fl.qmul fl (Fl.qmul fl q (ofVec l v)) r) = W at *
  generalize toH (Fl.qmul fl q (ofVec l v)) = a at *
  generalize toH (ofVec l v) = V at *
  generalize toH r = R at *
  generalize toH q = Q at *
  have hη : 0 ≤ (u + ((1 + u) ^ 4 - 1)) / (2 - (1 + u) ^ 4) := div_nonneg (by linarith) (by linarith)
  unfold rotErr
  generalize (u + ((1 + u) ^ 4 - 1)) / (2 - (1 + u) ^ 4) = η at *
  have hε : 0 ≤ 2 * ((1 + u) ^ 4 - 1) := by linarith
  generalize 2 * ((1 + u) ^ 4 - 1) = ε at *
  have na : ‖a‖ ≤ (1 + ε) * (‖Q‖ * ‖V‖) := by
    have := norm_le_norm_add_norm_sub' a (Q * V)
    rw [norm_mul] at this
    linarith
  have nR : ‖R‖ ≤ (1 + η) * ‖Q⁻¹‖ := by
    have := norm_le_norm_add_norm_sub' R Q⁻¹
    linarith
  have step : W - Q * V * Q⁻¹ = (W - a * R) + (a - Q * V) * R + Q * V * (R - Q⁻¹) := by noncomm_ring
  have n3 : ‖W - Q * V * Q⁻¹‖ ≤ ‖W - a * R‖ + ‖a - Q * V‖ * ‖R‖ + ‖Q‖ * ‖V‖ * ‖R - Q⁻¹‖ := by
    rw [step]
    refine (norm_add_le _ _).trans (add_le_add ((norm_add_le _ _).trans (add_le_add le_rfl (le_of_eq (norm_mul _ _)))) (le_of_eq ?_))
    rw [norm_mul, norm_mul]
  have hQV : 0 ≤ ‖Q‖ * ‖V‖ := by positivity
  have m1 : ‖a‖ * ‖R‖ ≤ (1 + ε) * (1 + η) * ‖V‖ := by
    calc ‖a‖ * ‖R‖ ≤ ((1 + ε) * (‖Q‖ * ‖V‖)) * ((1 + η) * ‖Q⁻¹‖) := mul_le_mul na nR (norm_nonneg _) (by positivity)
      _ = (1 + ε) * (1 + η) * ‖V‖ * (‖Q‖ * ‖Q⁻¹‖) := by ring
      _ = _ := by rw [hqi, mul_one]
  have m2 : ‖a - Q * V‖ * ‖R‖ ≤ ε * (1 + η) * ‖V‖ := by
    calc ‖a - Q * V‖ * ‖R‖ ≤ (ε * (‖Q‖ * ‖V‖)) * ((1 + η) * ‖Q⁻¹‖) := mul_le_mul b1 nR (norm_nonneg _) (by positivity)
      _ = ε * (1 + η) * ‖V‖ * (‖Q‖ * ‖Q⁻¹‖) := by ring
      _ = _ := by rw [hqi, mul_one]
  have m3 : ‖Q‖ * ‖V‖ * ‖R - Q⁻¹‖ ≤ η * ‖V‖ := by
    calc ‖Q‖ * ‖V‖ * ‖R - Q⁻¹‖ ≤ ‖Q‖ * ‖V‖ * (η * ‖Q⁻¹‖) := mul_le_mul_of_nonneg_left br hQV
      _ = η * ‖V‖ * (‖Q‖ * ‖Q⁻¹‖) := by ring
      _ = _ := by rw [hqi, mul_one]
  have m4 : ‖W - a * R‖ ≤ ε * ((1 + ε) * (1 + η) * ‖V‖) := b2.trans (mul_le_mul_of_nonneg_left m1 hε)
  calc ‖W - Q * V * Q⁻¹‖ ≤ ε * ((1 + ε) * (1 + η) * ‖V‖) + ε * (1 + η) * ‖V‖ + η * ‖V‖ := n3.trans (add_le_add (add_le_add m4 m2) m3)
    _ = ((1 + ε) ^ 2 * (1 + η) - 1) * ‖V‖ := by ring

/-- The bound is meaningful: for binary32 the relative error of a rotation is below `26 * 2^-24`. -/
theorem C99_bound_float : (1 + (2 : ℝ) ^ (-24 : ℤ)) ^ 4 < 2 ∧ rotErr ((2 : ℝ) ^ (-24 : ℤ)) ≤ 26 * (2 : ℝ) ^ (-24 : ℤ) := by
  unfold rotErr
  constructor <;> norm_num

/-- The hypotheses can be met: a quaternion of 24-bit floats. -/
example : ∃ (fl : ℝ → ℝ) (q : Quat ℝ .vectorFirst), Rounding fl ((2 : ℝ) ^ (-24 : ℤ)) ∧ (∀ t, fl (q.canonical t) = q.canonical t) ∧
    toH q ≠ 0 := by
  have hr := flAway_roundsToNearest (p := 24) (by norm_num)
  have hf : ∀ n : ℤ, |n| < 2 ^ 24 → flAway 24 n = n := by
    intro n hn
    have := hr.nearest n n ⟨n, 0, by simp, hn⟩
    rw [sub_self, abs_zero, abs_nonpos_iff, sub_eq_zero] at this
    exact this
  refine ⟨flAway 24, mk4 _ ((1 : ℤ) : ℝ) ((2 : ℤ) : ℝ) ((-3 : ℤ) : ℝ) ((4 : ℤ) : ℝ), ?_, fun t => ?_, ?_⟩
  · exact_mod_cast hr.rounding (by norm_num)
  · rw [canonical_mk4]
    fin_cases t
    exacts [hf 1 (by norm_num), hf 2 (by norm_num), hf (-3) (by norm_num), hf 4 (by norm_num)]
  · intro e
    have := congrArg QuaternionAlgebra.re e
    rw [toH_mk4] at this
    norm_num at this

end Mathter.Props
