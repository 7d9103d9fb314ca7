import Verif.Model.RoundedConversion
import Verif.Lemmas.Quaternion
import Verif.Lemmas.RoundedAnnihilate
import Mathlib.Tactic.FinCases
import Mathlib.Tactic.IntervalCases

/-!
# Rounding errors of the conversions between quaternions and matrices
-/

namespace Mathter.Fl
open Mathter Quat
variable {l : QLayout} {fl cast : ℝ → ℝ} {u v : ℝ}

/-- The nine computed elements, counted in the precede-vector sense. -/
noncomputable def quatEntryFl (fl cast : ℝ → ℝ) (ps pd : ℝ → ℝ → ℝ → ℝ → ℝ) (msub : ℝ → ℝ → ℝ → ℝ) (q : Quat ℝ l) : Matrix (Fin 3) (Fin 3) ℝ :=
  !![cast (msub 1 2 (ps q.j q.j q.k q.k)), cast (fl (2 * pd q.i q.j q.k q.s)), cast (fl (2 * ps q.i q.k q.j q.s));
     cast (fl (2 * ps q.i q.j q.k q.s)), cast (msub 1 2 (ps q.i q.i q.k q.k)), cast (fl (2 * pd q.j q.k q.i q.s));
     cast (fl (2 * pd q.i q.k q.j q.s)), cast (fl (2 * ps q.j q.k q.i q.s)), cast (msub 1 2 (ps q.i q.i q.j q.j))]

theorem quatToMatrix_entry (ps pd : ℝ → ℝ → ℝ → ℝ → ℝ) (msub : ℝ → ℝ → ℝ → ℝ) {r c : ℕ} (o : Order) (m : Matrix (Fin r) (Fin c) ℝ) (q : Quat ℝ l) (a : Fin r) (b : Fin c) :
    Fl.quatToMatrix fl cast ps pd msub o m q a b =
      if h : a.val < 3 ∧ b.val < 3 then
        match o with
        | .precede => quatEntryFl fl cast ps pd msub q ⟨a.val, h.1⟩ ⟨b.val, h.2⟩
        | .follow => quatEntryFl fl cast ps pd msub q ⟨b.val, h.2⟩ ⟨a.val, h.1⟩
      else if a.val = b.val then 1 else 0 := by
  unfold quatToMatrix
  rw [fill_identity]
  split_ifs with h
  · obtain ⟨⟨a, ha⟩, ⟨b, hb⟩⟩ := a, b
    obtain ⟨h1, h2⟩ := h
    simp only at h1 h2
    cases o <;> interval_cases a <;> interval_cases b <;> simp [setElem, quatEntryFl]
  all_goals simp_all

theorem near_psum (h : Rounding fl u) {ps : ℝ → ℝ → ℝ → ℝ → ℝ} (hps : IsProdSum fl ps) (a b c d : ℝ) :
    Near u 2 (ps a b c d) (a * b + c * d) (|a| * |b| + |c| * |d|) := by
  have p1 := (Near.exact (u := u) a).prod h (Near.exact b)
  have p2 := (Near.exact (u := u) c).prod h (Near.exact d)
  rcases hps a b c d with e | e | e <;> rw [e]
  · exact ((p1.round h).add (p2.round h)).round h
  · exact ((p1.mono h (Nat.le_succ _)).add (p2.round h)).round h
  · exact ((p1.round h).add (p2.mono h (Nat.le_succ _))).round h

theorem near_cast (hv : 0 ≤ v) (hc : ∀ x, |cast x - x| ≤ v * |x|) {k : ℕ} {y x M : ℝ} (a : Near u k y x M) :
    |cast y - x| ≤ ((1 + v) * (1 + u) ^ k - 1) * M := by
  have t := abs_add_le (cast y - y) (y - x)
  rw [sub_add_sub_cancel] at t
  have h1 := mul_le_mul_of_nonneg_left a.abs_le hv
  nlinarith [hc y, a.err]

theorem quatEntryFl_err (h : Rounding fl u) {ps pd : ℝ → ℝ → ℝ → ℝ → ℝ} {msub : ℝ → ℝ → ℝ → ℝ} (hps : IsProdSum fl ps) (hpd : IsProdDiff fl pd)
    (hms : IsMulSub fl msub) (hv : 0 ≤ v) (hc : ∀ x, |cast x - x| ≤ v * |x|) (q : Quat ℝ l) (a b : Fin 3) :
    |quatEntryFl fl cast ps pd msub q a b - quatEntry q a b| ≤ ((1 + v) * (1 + u) ^ 4 - 1) * (1 + 2 * q.qLengthSquared) := by
  have hu := h.u_nonneg
  have hK : 0 ≤ (1 + v) * (1 + u) ^ 4 - 1 := by
    have := one_le_mul_of_one_le_of_one_le (by linarith : (1 : ℝ) ≤ 1 + v) (h.one_le 4)
    linarith
  have hN := qLengthSquared_eq q
  have key : ∀ {y x M : ℝ}, Near u 4 y x M → M ≤ 1 + 2 * q.qLengthSquared →
      |cast y - x| ≤ ((1 + v) * (1 + u) ^ 4 - 1) * (1 + 2 * q.qLengthSquared) := fun n hM =>
    (near_cast hv hc n).trans (mul_le_mul_of_nonneg_left hM hK)
  have two : Near u 0 (2 : ℝ) 2 2 := by simpa using Near.exact (u := u) (2 : ℝ)
  have one : Near u 0 (1 : ℝ) 1 1 := by simpa using Near.exact (u := u) (1 : ℝ)
  have diag : ∀ x y : ℝ, x ^ 2 + y ^ 2 ≤ q.qLengthSquared → |cast (msub 1 2 (ps x x y y)) - (1 - 2 * (x * x + y * y))| ≤
      ((1 + v) * (1 + u) ^ 4 - 1) * (1 + 2 * q.qLengthSquared) := by
    intro x y hxy
    refine key (Near.msub h hms (k := 0) (l := 2) (m := 3) le_rfl two (near_psum h hps x x y y) (one.mono h (by norm_num))) ?_
    rw [abs_mul_abs_self, abs_mul_abs_self]
    nlinarith
  have offp : ∀ x y z w : ℝ, x ^ 2 + y ^ 2 + z ^ 2 + w ^ 2 ≤ q.qLengthSquared → |cast (fl (2 * ps x y z w)) - 2 * (x * y + z * w)| ≤
      ((1 + v) * (1 + u) ^ 4 - 1) * (1 + 2 * q.qLengthSquared) := by
    intro x y z w hx
    refine key ((Near.mul h two (near_psum h hps x y z w)).mono h (by norm_num)) ?_
    rw [← sq_abs x, ← sq_abs y, ← sq_abs z, ← sq_abs w] at hx
    nlinarith [sq_nonneg (|x| - |y|), sq_nonneg (|z| - |w|), sq_nonneg (|x|), sq_nonneg (|y|), sq_nonneg (|z|), sq_nonneg (|w|)]
  have offm : ∀ x y z w : ℝ, x ^ 2 + y ^ 2 + z ^ 2 + w ^ 2 ≤ q.qLengthSquared → |cast (fl (2 * pd x y z w)) - 2 * (x * y - z * w)| ≤
      ((1 + v) * (1 + u) ^ 4 - 1) * (1 + 2 * q.qLengthSquared) := by
    intro x y z w hx
    refine key ((Near.mul h two (Near.pd h hpd (Near.exact (u := u) x) (Near.exact y) (Near.exact z) (Near.exact w))).mono h (by norm_num)) ?_
    rw [← sq_abs x, ← sq_abs y, ← sq_abs z, ← sq_abs w] at hx
    nlinarith [sq_nonneg (|x| - |y|), sq_nonneg (|z| - |w|), sq_nonneg (|x|), sq_nonneg (|y|), sq_nonneg (|z|), sq_nonneg (|w|)]
  fin_cases a <;> fin_cases b
  · exact diag q.j q.k (by nlinarith [sq_nonneg q.s, sq_nonneg q.i])
  · exact offm q.i q.j q.k q.s (by linarith)
  · exact offp q.i q.k q.j q.s (by linarith)
  · exact offp q.i q.j q.k q.s (by linarith)
  · exact diag q.i q.k (by nlinarith [sq_nonneg q.s, sq_nonneg q.j])
  · exact offm q.j q.k q.i q.s (by linarith)
  · exact offm q.i q.k q.j q.s (by linarith)
  · exact offp q.j q.k q.i q.s (by linarith)
  · exact diag q.i q.j (by nlinarith [sq_nonneg q.s, sq_nonneg q.k])

/-- The polynomial of a quaternion that is not quite of unit length is not quite its rotation. -/
theorem quatEntry_rotMat (q : Quat ℝ l) (h0 : q.qLengthSquared ≠ 0) (a b : Fin 3) : |quatEntry q a b - q.rotMat a b| ≤ 2 * |q.qLengthSquared - 1| := by
  have hN := qLengthSquared_eq q
  have hpos : 0 < q.qLengthSquared := by
    apply lt_of_le_of_ne _ h0.symm
    rw [hN]; positivity
  -- every difference is `x·(1 - 1/N)` with `|x| ≤ 2N`
  have key : ∀ x d : ℝ, |x| ≤ 2 * q.qLengthSquared → d = x * (1 - 1 / q.qLengthSquared) → |d| ≤ 2 * |q.qLengthSquared - 1| := by
    intro x d hx hd
    have e : x * (1 - 1 / q.qLengthSquared) = x / q.qLengthSquared * (q.qLengthSquared - 1) := by field_simp
    rw [hd, e, abs_mul, abs_div, abs_of_pos hpos]
    apply mul_le_mul_of_nonneg_right _ (abs_nonneg _)
    rw [div_le_iff₀ hpos]; exact hx
  have d1 : ∀ x y : ℝ, x ^ 2 + y ^ 2 ≤ q.qLengthSquared → |-(2 * (x * x + y * y))| ≤ 2 * q.qLengthSquared := by
    intro x y h
    rw [abs_neg, abs_of_nonneg (by nlinarith [sq_nonneg x, sq_nonneg y])]; nlinarith
  have d2 : ∀ x y z w : ℝ, x ^ 2 + y ^ 2 + z ^ 2 + w ^ 2 ≤ q.qLengthSquared → |2 * (x * y + z * w)| ≤ 2 * q.qLengthSquared := by
    intro x y z w h
    rw [_root_.abs_le]
    constructor <;> nlinarith [sq_nonneg (x - y), sq_nonneg (z - w), sq_nonneg (x + y), sq_nonneg (z + w)]
  have d3 : ∀ x y z w : ℝ, x ^ 2 + y ^ 2 + z ^ 2 + w ^ 2 ≤ q.qLengthSquared → |2 * (x * y - z * w)| ≤ 2 * q.qLengthSquared := by
    intro x y z w h
    have := d2 x y z (-w) (by linarith [neg_sq w])
    rwa [mul_neg, ← sub_eq_add_neg] at this
  fin_cases a <;> fin_cases b
  · refine key (-(2 * (q.j * q.j + q.k * q.k))) _ (d1 _ _ (by nlinarith [sq_nonneg q.s, sq_nonneg q.i])) ?_
    simp [quatEntry, rotMat]; field_simp; rw [hN]; ring
  · refine key (2 * (q.i * q.j - q.k * q.s)) _ (d3 _ _ _ _ (by linarith)) ?_
    simp [quatEntry, rotMat]; field_simp
  · refine key (2 * (q.i * q.k + q.j * q.s)) _ (d2 _ _ _ _ (by linarith)) ?_
    simp [quatEntry, rotMat]; field_simp
  · refine key (2 * (q.i * q.j + q.k * q.s)) _ (d2 _ _ _ _ (by linarith)) ?_
    simp [quatEntry, rotMat]; field_simp
  · refine key (-(2 * (q.i * q.i + q.k * q.k))) _ (d1 _ _ (by nlinarith [sq_nonneg q.s, sq_nonneg q.j])) ?_
    simp [quatEntry, rotMat]; field_simp; rw [hN]; ring
  · refine key (2 * (q.j * q.k - q.i * q.s)) _ (d3 _ _ _ _ (by linarith)) ?_
    simp [quatEntry, rotMat]; field_simp
  · refine key (2 * (q.i * q.k - q.j * q.s)) _ (d3 _ _ _ _ (by linarith)) ?_
    simp [quatEntry, rotMat]; field_simp
  · refine key (2 * (q.j * q.k + q.i * q.s)) _ (d2 _ _ _ _ (by linarith)) ?_
    simp [quatEntry, rotMat]; field_simp
  · refine key (-(2 * (q.i * q.i + q.j * q.j))) _ (d1 _ _ (by nlinarith [sq_nonneg q.s, sq_nonneg q.k])) ?_
    simp [quatEntry, rotMat]; field_simp; rw [hN]; ring

/-! ## From matrices -/

theorem Rounding.weaken (h : Rounding fl u) {w : ℝ} (hw : u ≤ w) : Rounding fl w :=
  ⟨h.u_nonneg.trans hw, h.idem, h.odd, fun x => (h.err x).trans (mul_le_mul_of_nonneg_right hw (abs_nonneg x)), h.sub_exact, h.err_exact⟩

/-- The sum under the square root. -/
theorem trace_err (h : Rounding fl u) {s i k : ℝ} {ε e0 e1 e2 j : ℝ} (hs : 0 < s) (hN : s ^ 2 + i ^ 2 + j ^ 2 + k ^ 2 = 1) (hε : 0 ≤ ε)
    (hw : (u + ε) / s ^ 2 ≤ 1 / 1000) (h0 : |e0 - (1 - 2 * (j * j + k * k))| ≤ ε) (h1 : |e1 - (1 - 2 * (i * i + k * k))| ≤ ε)
    (h2 : |e2 - (1 - 2 * (i * i + j * j))| ≤ ε) : Rel ((u + ε) / s ^ 2) (24 / 10) (fl (fl (fl (1 + e0) + e1) + e2)) (4 * s ^ 2) := by
  have hu := h.u_nonneg
  have hi := mul_self_nonneg i
  have hj := mul_self_nonneg j
  have hk := mul_self_nonneg k
  rw [pow_two i, pow_two j, pow_two k] at hN
  have hs2 : 0 < s ^ 2 := by positivity
  have hs1 : s ^ 2 ≤ 1 := by linarith
  rw [div_le_iff₀ hs2] at hw
  have hue : u + ε ≤ 1 / 1000 := by linarith
  have r1 := h.err (1 + e0)
  have r2 := h.err (fl (1 + e0) + e1)
  have r3 := h.err (fl (fl (1 + e0) + e1) + e2)
  unfold Rel
  rw [abs_of_pos (by positivity : (0 : ℝ) < 4 * s ^ 2), show 24 / 10 * ((u + ε) / s ^ 2) * (4 * s ^ 2) = 96 / 10 * (u + ε) by field_simp; ring]
  generalize i * i = A at *
  generalize j * j = B at *
  generalize k * k = C at *
  generalize s ^ 2 = S at *
  generalize fl (fl (fl (1 + e0) + e1) + e2) = t3 at *
  generalize fl (fl (1 + e0) + e1) = t2 at *
  generalize fl (1 + e0) = t1 at *
  have b0 : |1 + e0| ≤ 2 + ε := by
    rw [_root_.abs_le] at h0 ⊢
    constructor <;> linarith
  have r1' : |t1 - (1 + e0)| ≤ u * (2 + ε) := r1.trans (mul_le_mul_of_nonneg_left b0 hu)
  have hu1 : u ≤ 1 / 1000 := by linarith
  have hε1 : ε ≤ 1 / 1000 := by linarith
  have r1'' : |t1 - (1 + e0)| ≤ u * (2001 / 1000) := r1'.trans (mul_le_mul_of_nonneg_left (by linarith) hu)
  have b1 : |t1 + e1| ≤ 301 / 100 := by
    rw [_root_.abs_le] at h0 h1 r1'' ⊢
    constructor <;> linarith
  have r2'' : |t2 - (t1 + e1)| ≤ u * (301 / 100) := r2.trans (mul_le_mul_of_nonneg_left b1 hu)
  have b2 : |t2 + e2| ≤ 402 / 100 := by
    rw [_root_.abs_le] at h0 h1 h2 r1'' r2'' ⊢
    constructor <;> linarith
  have r3'' : |t3 - (t2 + e2)| ≤ u * (402 / 100) := r3.trans (mul_le_mul_of_nonneg_left b2 hu)
  rw [_root_.abs_le] at h0 h1 h2 r1'' r2'' r3'' ⊢
  constructor <;> linarith

/-- One element of the vector part: `n` approximates `4·x·s` and `d` approximates `1/(4s)`. -/
theorem part_err (h : Rounding fl u) {s x ε a b a0 b0 d : ℝ} (hs : 0 < s) (hs1 : s ≤ 1) (hx : |x| ≤ 1) (hε : 0 ≤ ε) (hw : (u + ε) / s ^ 2 ≤ 1 / 1000)
    (ha : |a - a0| ≤ ε) (hb : |b - b0| ≤ ε) (hn : a0 - b0 = 4 * (x * s)) (hd : Rel ((u + ε) / s ^ 2) (65 / 10) d (4 * s)⁻¹) :
    |fl (fl (a - b) * d) - x| ≤ 10 * ((u + ε) / s ^ 2) := by
  have hu := h.u_nonneg
  set w := (u + ε) / s ^ 2 with hwd
  have hs2 : 0 < s ^ 2 := by positivity
  have hwm : w * s ^ 2 = u + ε := by rw [hwd]; field_simp
  clear_value w
  have hw0 : 0 ≤ w := by by_contra hneg; push Not at hneg; nlinarith
  have hss : s ^ 2 ≤ s := by nlinarith
  have huw : u ≤ w := by nlinarith
  -- the numerator
  have n1 : |(a - b) - 4 * (x * s)| ≤ 2 * ε := by
    rw [← hn, _root_.abs_le] at *
    constructor <;> linarith
  have n2 := h.err (a - b)
  have hxs : |4 * (x * s)| ≤ 4 * s := by
    rw [abs_mul, abs_mul, abs_of_pos hs, abs_of_pos (by norm_num : (0 : ℝ) < 4)]; nlinarith
  have nb : |a - b| ≤ 4 * s + 2 * ε := by
    have := abs_sub_abs_le_abs_sub (a - b) (4 * (x * s)); linarith
  have n3 : |fl (a - b) - 4 * (x * s)| ≤ 2 * ε + u * (4 * s + 2 * ε) := by
    have t := abs_add_le (fl (a - b) - (a - b)) ((a - b) - 4 * (x * s))
    rw [sub_add_sub_cancel] at t
    linarith [mul_le_mul_of_nonneg_left nb hu]
  generalize fl (a - b) = n at *
  -- the quotient
  have hda := hd.abs_le
  have hpos : 0 < (4 * s)⁻¹ := by positivity
  unfold Rel at hd
  rw [abs_of_pos hpos] at hd hda
  have hd1 : |d| * (4 * s) ≤ 1 + 65 / 10 * w := by
    have := mul_le_mul_of_nonneg_right hda (by positivity : (0 : ℝ) ≤ 4 * s)
    rwa [mul_assoc, inv_mul_cancel₀ (by positivity), mul_one] at this
  have hd2 : |d - (4 * s)⁻¹| * (4 * s) ≤ 65 / 10 * w := by
    have := mul_le_mul_of_nonneg_right hd (by positivity : (0 : ℝ) ≤ 4 * s)
    rwa [mul_assoc (65 / 10 * w), inv_mul_cancel₀ (by positivity), mul_one] at this
  have e : n * d - x = (n - 4 * (x * s)) * d + x * ((d - (4 * s)⁻¹) * (4 * s)) := by field_simp; ring
  have m1 : |n - 4 * (x * s)| ≤ (16 / 10 * w) * (4 * s) := by
    -- 2ε ≤ 2 w s² ≤ 2 w s
    have a1 : ε ≤ w * s := by nlinarith
    have a2 : u * (4 * s) ≤ w * (4 * s) := mul_le_mul_of_nonneg_right huw (by positivity)
    have a3 : u * (2 * ε) ≤ 1 / 1000 * (2 * (w * s)) := by
      apply mul_le_mul (huw.trans hw) (by linarith) (by positivity) (by norm_num)
    have : 0 ≤ w * s := by positivity
    linarith
  have m2 : |(n - 4 * (x * s)) * d| ≤ 16 / 10 * w * (1 + 65 / 10 * w) := by
    rw [abs_mul]
    calc _ ≤ (16 / 10 * w) * (4 * s) * |d| := mul_le_mul_of_nonneg_right m1 (abs_nonneg _)
      _ = 16 / 10 * w * (|d| * (4 * s)) := by ring
      _ ≤ _ := mul_le_mul_of_nonneg_left hd1 (by positivity)
  have m3 : |x * ((d - (4 * s)⁻¹) * (4 * s))| ≤ 65 / 10 * w := by
    rw [abs_mul, abs_mul, abs_of_pos (by positivity : (0 : ℝ) < 4 * s)]
    have : 0 ≤ |d - (4 * s)⁻¹| * (4 * s) := by positivity
    calc _ ≤ 1 * (|d - (4 * s)⁻¹| * (4 * s)) := mul_le_mul_of_nonneg_right hx this
      _ ≤ _ := by linarith
  have m4 : |n * d - x| ≤ 82 / 10 * w := by
    rw [e]
    have := abs_add_le ((n - 4 * (x * s)) * d) (x * ((d - (4 * s)⁻¹) * (4 * s)))
    nlinarith
  have m5 : |n * d| ≤ 11 / 10 := by
    have := abs_sub_abs_le_abs_sub (n * d) x; linarith
  have m6 := h.err (n * d)
  have t := abs_add_le (fl (n * d) - n * d) (n * d - x)
  rw [sub_add_sub_cancel] at t
  have := mul_le_mul huw m5 (abs_nonneg _) hw0
  linarith

/-- The conversion of nine elements close to those of a unit quaternion with positive scalar part. -/
theorem matrixToQuat_err (h : Rounding fl u) {v : ℝ} (hv : 0 ≤ v) (hc : ∀ x, |cast x - x| ≤ v * |x|) {r c : ℕ} (o : Order)
    (m : Matrix (Fin (r + 3)) (Fin (c + 3)) ℝ) {q0 : Quat ℝ l} (hs : 0 < q0.s) (hN : q0.qLengthSquared = 1) {ε : ℝ} (hε : 0 ≤ ε)
    (hw : (u + ε) / q0.s ^ 2 ≤ 1 / 1000) (hm : ∀ a b, |getElem3 o m a b - quatEntry q0 a b| ≤ ε) (l' : QLayout) :
    ∃ q, Fl.matrixToQuat fl cast o l' m = some q ∧
      ∀ t, |q.canonical t - q0.canonical t| ≤ 10 * ((u + ε) / q0.s ^ 2) + 101 / 100 * v := by
  have hu := h.u_nonneg
  have hN' := (qLengthSquared_eq q0).symm.trans hN
  set s := q0.s with hsd
  have hs1 : s ≤ 1 := by nlinarith [sq_nonneg q0.i, sq_nonneg q0.j, sq_nonneg q0.k]
  have ht := trace_err (e0 := getElem3 o m 0 0) (e1 := getElem3 o m 1 1) (e2 := getElem3 o m 2 2) h hs hN' hε hw (hm 0 0) (hm 1 1) (hm 2 2)
  set w := (u + ε) / s ^ 2 with hwd
  have hs2 : 0 < s ^ 2 := by positivity
  have hwm : w * s ^ 2 = u + ε := by rw [hwd]; field_simp
  have hw0 : 0 ≤ w := by rw [hwd]; positivity
  have huw : u ≤ w := by nlinarith
  have hR : Rounding fl w := Rounding.weaken h huw
  unfold matrixToQuat
  simp only
  set t := fl (fl (fl (1 + getElem3 o m 0 0) + getElem3 o m 1 1) + getElem3 o m 2 2) with htd
  have hsgn := ht.sign (by linarith)
  have ht0 : ¬ t < 0 := by rw [hsgn.1]; exact not_lt.2 (by positivity)
  rw [if_neg ht0]
  have q1 := ht.sqrt (by linarith) (by positivity : (0 : ℝ) ≤ 4 * s ^ 2)
  rw [show (4 : ℝ) * s ^ 2 = (2 * s) ^ 2 by ring, Real.sqrt_sq (by positivity)] at q1
  have q2 := q1.round hR hw (m := 342 / 100) (by norm_num) (by norm_num)
  have q3 : Rel w (443 / 100) (fl (fl (Real.sqrt t) * 0.5)) s := by
    have := (q2.mul hw0 hw (by norm_num) le_rfl (Rel.refl hw0 le_rfl (0.5 : ℝ)) (m := 342 / 100) (by norm_num)).round hR hw (m := 443 / 100) (by norm_num) (by norm_num)
    rwa [show 2 * s * 0.5 = s by ring] at this
  set ŝ := fl (fl (Real.sqrt t) * 0.5) with hŝ
  have q4 : Rel w (544 / 100) (fl (4 * ŝ)) (4 * s) :=
    ((Rel.refl hw0 le_rfl (4 : ℝ)).mul hw0 hw le_rfl (by norm_num) q3 (m := 443 / 100) (by norm_num)).round hR hw (by norm_num) (by norm_num)
  have hd0 : fl (4 * ŝ) ≠ 0 := by
    rw [Ne, (q4.sign (by linarith)).2]; positivity
  rw [if_neg hd0]
  have q5 : Rel w (65 / 10) (fl (1 / fl (4 * ŝ))) (4 * s)⁻¹ := by
    rw [one_div]
    exact (q4.inv hw0 hw (by norm_num) (by norm_num) (m := 548 / 100) (by norm_num)).round hR hw (by norm_num) (by norm_num)
  refine ⟨_, rfl, ?_⟩
  have fin : ∀ y x : ℝ, |x| ≤ 1 → |y - x| ≤ 10 * w → |cast y - x| ≤ 10 * w + 101 / 100 * v := by
    intro y x hx hy
    have h1 : |y| ≤ 101 / 100 := by have := abs_sub_abs_le_abs_sub y x; linarith
    have t := abs_add_le (cast y - y) (y - x)
    rw [sub_add_sub_cancel] at t
    have := mul_le_mul_of_nonneg_left h1 hv
    linarith [hc y]
  have le1 : ∀ x : ℝ, x ^ 2 ≤ 1 → |x| ≤ 1 := fun x hx => by rwa [← sq_le_one_iff_abs_le_one]
  have hi := le1 q0.i (by nlinarith [sq_nonneg q0.i, sq_nonneg q0.j, sq_nonneg q0.k])
  have hj := le1 q0.j (by nlinarith [sq_nonneg q0.i, sq_nonneg q0.j, sq_nonneg q0.k])
  have hk := le1 q0.k (by nlinarith [sq_nonneg q0.i, sq_nonneg q0.j, sq_nonneg q0.k])
  intro x
  rw [canonical_ofCanonical]
  fin_cases x
  · refine fin ŝ s (by rw [abs_of_pos hs]; exact hs1) ?_
    unfold Rel at q3
    rw [abs_of_pos hs] at q3
    nlinarith
  · exact fin _ q0.i hi (part_err h hs hs1 hi hε hw (hm 2 1) (hm 1 2) (by simp [quatEntry]; ring) q5)
  · exact fin _ q0.j hj (part_err h hs hs1 hj hε hw (hm 0 2) (hm 2 0) (by simp [quatEntry]; ring) q5)
  · exact fin _ q0.k hk (part_err h hs hs1 hk hε hw (hm 1 0) (hm 0 1) (by simp [quatEntry]; ring) q5)

end Mathter.Fl
