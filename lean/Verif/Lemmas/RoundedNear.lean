import Verif.Model.RoundedDeterminant
import Verif.Model.RoundedLinear
import Verif.Spec.Rounding

/-!
# Rounding errors of products, sums and differences

Counting rounding errors relative to a bound of the exact value.
-/

namespace Mathter
variable {fl : ℝ → ℝ} {u : ℝ}

/-- `y` is `x` up to `k` rounding errors relative to `M`, a bound of `x`. -/
structure Near (u : ℝ) (k : ℕ) (y x M : ℝ) : Prop where
  err : |y - x| ≤ ((1 + u) ^ k - 1) * M
  bound : |x| ≤ M

theorem Rounding.one_le (h : Rounding fl u) (k : ℕ) : 1 ≤ (1 + u) ^ k := one_le_pow₀ (by linarith [h.u_nonneg])

theorem Near.nonneg {k : ℕ} {y x M : ℝ} (h : Near u k y x M) : 0 ≤ M := (abs_nonneg _).trans h.bound

theorem Near.abs_le {k : ℕ} {y x M : ℝ} (h : Near u k y x M) : |y| ≤ (1 + u) ^ k * M := by
  have := abs_sub_abs_le_abs_sub y x
  linarith [h.err, h.bound]

theorem Near.exact (x : ℝ) : Near u 0 x x |x| := ⟨by simp, le_rfl⟩

theorem Near.mono (h : Rounding fl u) {k l : ℕ} (hk : k ≤ l) {y x M : ℝ} (a : Near u k y x M) : Near u l y x M :=
  ⟨a.err.trans (mul_le_mul_of_nonneg_right (by linarith [pow_le_pow_right₀ (by linarith [h.u_nonneg] : 1 ≤ 1 + u) hk]) a.nonneg), a.bound⟩

theorem Near.round (h : Rounding fl u) {k : ℕ} {y x M : ℝ} (a : Near u k y x M) : Near u (k + 1) (fl y) x M := by
  refine ⟨?_, a.bound⟩
  have t := abs_add_le (fl y - y) (y - x)
  rw [sub_add_sub_cancel] at t
  have := mul_le_mul_of_nonneg_left a.abs_le h.u_nonneg
  have := h.err y
  have := a.err
  rw [pow_succ]
  linarith

theorem Near.prod (h : Rounding fl u) {k l : ℕ} {y x M y' x' M' : ℝ} (a : Near u k y x M) (b : Near u l y' x' M') :
    Near u (k + l) (y * y') (x * x') (M * M') := by
  have e : y * y' - x * x' = (y - x) * y' + x * (y' - x') := by ring
  refine ⟨?_, by rw [abs_mul]; exact mul_le_mul a.bound b.bound (abs_nonneg _) a.nonneg⟩
  rw [e]
  refine (abs_add_le _ _).trans ?_
  rw [abs_mul, abs_mul]
  have h1 := mul_le_mul a.err b.abs_le (abs_nonneg _) (mul_nonneg (by linarith [h.one_le k]) a.nonneg)
  have h2 := mul_le_mul a.bound b.err (abs_nonneg _) a.nonneg
  rw [pow_add]
  linarith

theorem Near.add {k : ℕ} {y x M y' x' M' : ℝ} (a : Near u k y x M) (b : Near u k y' x' M') :
    Near u k (y + y') (x + x') (M + M') := by
  have e : y + y' - (x + x') = (y - x) + (y' - x') := by ring
  refine ⟨?_, (abs_add_le _ _).trans (add_le_add a.bound b.bound)⟩
  rw [e]
  refine (abs_add_le _ _).trans ?_
  linarith [a.err, b.err]

theorem Near.neg {k : ℕ} {y x M : ℝ} (a : Near u k y x M) : Near u k (-y) (-x) M := by
  refine ⟨?_, by rw [abs_neg]; exact a.bound⟩
  rw [← neg_sub_neg, neg_neg, neg_neg, abs_sub_comm]
  exact a.err

theorem Near.sub {k : ℕ} {y x M y' x' M' : ℝ} (a : Near u k y x M) (b : Near u k y' x' M') :
    Near u k (y - y') (x - x') (M + M') := by
  rw [sub_eq_add_neg, sub_eq_add_neg]; exact a.add b.neg

theorem Near.mul (h : Rounding fl u) {k l : ℕ} {y x M y' x' M' : ℝ} (a : Near u k y x M) (b : Near u l y' x' M') :
    Near u (k + l + 1) (fl (y * y')) (x * x') (M * M') := (a.prod h b).round h

theorem Near.pd (h : Rounding fl u) {f : ℝ → ℝ → ℝ → ℝ → ℝ} (hf : Fl.IsProdDiff fl f) {k l : ℕ}
    {a a' A b b' B c c' C d d' D : ℝ} (ha : Near u k a a' A) (hb : Near u l b b' B) (hc : Near u k c c' C) (hd : Near u l d d' D) :
    Near u (k + l + 2) (f a b c d) (a' * b' - c' * d') (A * B + C * D) := by
  have p1 := ha.prod h hb
  have p2 := hc.prod h hd
  rcases hf a b c d with e | e | e <;> rw [e]
  · exact ((p1.round h).sub (p2.round h)).round h
  · exact ((p1.mono h (Nat.le_succ _)).sub (p2.round h)).round h
  · exact ((p1.round h).sub (p2.mono h (Nat.le_succ _))).round h

theorem Near.madd (h : Rounding fl u) {f : ℝ → ℝ → ℝ → ℝ} (hf : Fl.IsMulAdd fl f) {k l m : ℕ} (hm : k + l + 1 ≤ m)
    {a a' A b b' B d d' D : ℝ} (ha : Near u k a a' A) (hb : Near u l b b' B) (hd : Near u m d d' D) :
    Near u (m + 1) (f a b d) (a' * b' + d') (A * B + D) := by
  have p1 := ha.prod h hb
  rcases hf a b d with e | e <;> rw [e]
  · exact (((p1.round h).mono h hm).add hd).round h
  · exact ((p1.mono h (by omega)).add hd).round h

theorem Near.msub (h : Rounding fl u) {f : ℝ → ℝ → ℝ → ℝ} (hf : Fl.IsMulSub fl f) {k l m : ℕ} (hm : k + l + 1 ≤ m)
    {a a' A b b' B d d' D : ℝ} (ha : Near u k a a' A) (hb : Near u l b b' B) (hd : Near u m d d' D) :
    Near u (m + 1) (f d a b) (d' - a' * b') (D + A * B) := by
  have p1 := ha.prod h hb
  rcases hf d a b with e | e <;> rw [e]
  · exact (hd.sub ((p1.round h).mono h hm)).round h
  · exact (hd.sub (p1.mono h (by omega))).round h

theorem Near.congr {k l : ℕ} {y x x' M M' : ℝ} (a : Near u k y x M) (hk : k = l) (hx : x = x') (hM : M = M') : Near u l y x' M' := by
  subst hk hx hM; exact a

end Mathter
