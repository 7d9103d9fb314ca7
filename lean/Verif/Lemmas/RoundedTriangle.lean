import Verif.Model.RoundedTriangle
import Verif.Spec.RoundedTriangle
import Verif.Lemmas.RoundedNear
import Verif.Props.Intersection

/-!
# Rounding errors of triple products
-/

namespace Mathter
open Mathter.Props

variable {fl : ℝ → ℝ} {u : ℝ}

/-- `Dot` of three elements with errors. -/
theorem near_dot3 (h : Rounding fl u) {dot : (Fin 3 → ℝ) → (Fin 3 → ℝ) → ℝ} (hd : Fl.IsDot u 3 dot) {k l : ℕ} {x x' X y y' Y : Fin 3 → ℝ}
    (hx : ∀ i, Near u k (x i) (x' i) (X i)) (hy : ∀ i, Near u l (y i) (y' i) (Y i)) :
    Near u (k + l + 3) (dot x y) (∑ i, x' i * y' i) (∑ i, X i * Y i) := by
  have hi : ∀ i, Near u (k + l) (x i * y i) (x' i * y' i) (X i * Y i) := fun i => (hx i).prod h (hy i)
  have hb : |∑ i, x' i * y' i| ≤ ∑ i, X i * Y i := (Finset.abs_sum_le_sum_abs _ _).trans (Finset.sum_le_sum fun i _ => (hi i).bound)
  refine ⟨?_, hb⟩
  have k1 := hd x y
  have k2 : ∑ i, |x i * y i| ≤ (1 + u) ^ (k + l) * ∑ i, X i * Y i := by
    rw [Finset.mul_sum]
    exact Finset.sum_le_sum fun i _ => (hi i).abs_le
  have k3 : |∑ i, x i * y i - ∑ i, x' i * y' i| ≤ ((1 + u) ^ (k + l) - 1) * ∑ i, X i * Y i := by
    rw [← Finset.sum_sub_distrib, Finset.mul_sum]
    exact (Finset.abs_sum_le_sum_abs _ _).trans (Finset.sum_le_sum fun i _ => (hi i).err)
  have k4 := mul_le_mul_of_nonneg_left k2 (by linarith [h.one_le 3] : 0 ≤ (1 + u) ^ 3 - 1)
  have k5 := abs_add_le (dot x y - ∑ i, x i * y i) (∑ i, x i * y i - ∑ i, x' i * y' i)
  rw [sub_add_sub_cancel] at k5
  rw [pow_add _ (k + l) 3]
  linarith

/-- The sizes of the terms of the components of a cross product. -/
def absCross (a b : Fin 3 → ℝ) : Fin 3 → ℝ := ![a 1 * b 2 + a 2 * b 1, a 2 * b 0 + a 0 * b 2, a 0 * b 1 + a 1 * b 0]

/-- `Cross` of floats with errors. -/
theorem near_cross (h : Rounding fl u) {cross : (Fin 3 → ℝ) → (Fin 3 → ℝ) → Fin 3 → ℝ} (hc : Fl.IsCross fl u cross) {k l : ℕ} {x x' X y y' Y : Fin 3 → ℝ}
    (hx : ∀ i, Near u k (x i) (x' i) (X i)) (hy : ∀ i, Near u l (y i) (y' i) (Y i)) (fx : ∀ i, fl (x i) = x i) (fy : ∀ i, fl (y i) = y i) (i : Fin 3) :
    Near u (k + l + 4) (cross x y i) (crossProduct x' y' i) (absCross X Y i) := by
  have hi : Near u (k + l) (crossProduct x y i) (crossProduct x' y' i) (absCross X Y i) := by
    rw [cross_apply, cross_apply]
    fin_cases i
    · exact ((hx 1).prod h (hy 2)).sub ((hx 2).prod h (hy 1))
    · exact ((hx 2).prod h (hy 0)).sub ((hx 0).prod h (hy 2))
    · exact ((hx 0).prod h (hy 1)).sub ((hx 1).prod h (hy 0))
  refine ⟨?_, hi.bound⟩
  have k1 := hc x y fx fy i
  have k2 := mul_le_mul_of_nonneg_left hi.abs_le (by linarith [h.one_le 4] : 0 ≤ (1 + u) ^ 4 - 1)
  have k3 := abs_add_le (cross x y i - crossProduct x y i) (crossProduct x y i - crossProduct x' y' i)
  rw [sub_add_sub_cancel] at k3
  rw [pow_add _ (k + l) 4]
  linarith [hi.err]

/-- A computed triple product. -/
theorem near_triple (h : Rounding fl u) {dot : (Fin 3 → ℝ) → (Fin 3 → ℝ) → ℝ} (hd : Fl.IsDot u 3 dot) {cross : (Fin 3 → ℝ) → (Fin 3 → ℝ) → Fin 3 → ℝ}
    (hc : Fl.IsCross fl u cross) {j k l : ℕ} {w w' x x' y y' : Fin 3 → ℝ} (hw : ∀ i, Near u j (w i) (w' i) |w' i|) (hx : ∀ i, Near u k (x i) (x' i) |x' i|)
    (hy : ∀ i, Near u l (y i) (y' i) |y' i|) (fx : ∀ i, fl (x i) = x i) (fy : ∀ i, fl (y i) = y i) :
    Near u (j + (k + l + 4) + 3) (dot w (cross x y)) (det3v w' x' y') (absDet3 w' x' y') := by
  refine (near_dot3 h hd hw (near_cross h hc hx hy fx fy)).congr rfl ?_ ?_
  · rw [det3v, Matrix.det_fin_three, Fin.sum_univ_three, cross_apply]
    simp
    ring
  · rw [Fin.sum_univ_three]
    simp [absCross, absDet3]

/-- Multiplying by the rounded reciprocal of `a`. -/
theorem near_recip (h : Rounding fl u) {a N N' M : ℝ} (ha : a ≠ 0) {k : ℕ} (hN : Near u k N N' M) : Near u (k + 2) (fl (fl (1 / a) * N) * a) N' M := by
  have h1 : Near u 1 (fl (1 / a) * a) 1 1 := by
    refine ⟨?_, by norm_num⟩
    have k1 := h.err (1 / a)
    have e1 : fl (1 / a) * a - 1 = (fl (1 / a) - 1 / a) * a := by field_simp
    rw [e1, abs_mul]
    refine (mul_le_mul_of_nonneg_right k1 (abs_nonneg _)).trans (le_of_eq ?_)
    rw [mul_assoc, ← abs_mul, one_div_mul_cancel ha]
    simp
  have h2 : Near u (k + 1) (fl (1 / a) * N * a) N' M := by
    have := (hN.prod h h1).congr rfl (mul_one _) (mul_one _)
    rwa [show N * (fl (1 / a) * a) = fl (1 / a) * N * a by ring] at this
  refine ⟨?_, hN.bound⟩
  have k1 := h.err (fl (1 / a) * N)
  have k2 : |fl (fl (1 / a) * N) * a - fl (1 / a) * N * a| ≤ u * |fl (1 / a) * N * a| := by
    rw [← sub_mul, abs_mul, abs_mul _ a, ← mul_assoc]
    exact mul_le_mul_of_nonneg_right k1 (abs_nonneg _)
  have k3 := mul_le_mul_of_nonneg_left h2.abs_le h.u_nonneg
  have k4 := abs_add_le (fl (fl (1 / a) * N) * a - fl (1 / a) * N * a) (fl (1 / a) * N * a - N')
  rw [sub_add_sub_cancel] at k4
  rw [show k + 2 = k + 1 + 1 from rfl, pow_succ]
  linarith [h2.err]

end Mathter
