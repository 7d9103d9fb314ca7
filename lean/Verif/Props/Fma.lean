import Verif.Model.Fma
import Verif.Spec.Rounding
import Verif.Lemmas.Vector
import Verif.Props.Swizzle
import Mathlib.LinearAlgebra.CrossProduct
import Mathlib.Tactic.FinCases

/-!
# Accuracy of `FMTA` and of the 3D cross product

C74: `FMTA(a,b,c,d)` has a small relative error whatever the cancellation. C75: so has every component of `Cross(a, b)` in three dimensions, and it
is zero exactly if the true component is zero.
-/

namespace Mathter.Props
open Mathter
variable {c : Cfg} {dim : ℕ} {pk p1 p2 p3 p4 : Bool}

private theorem fix {p : ℕ} {fl : ℝ → ℝ} (h : RoundsToNearest p fl) {x : ℝ} (hx : IsFloat p x) : fl x = x := by
  have := h.nearest x x hx
  rw [sub_self, abs_zero] at this
  exact sub_eq_zero.1 (abs_nonpos_iff.1 this)

private theorem float_neg {p : ℕ} {x : ℝ} (h : IsFloat p x) : IsFloat p (-x) := by
  obtain ⟨m, e, rfl, hm⟩ := h
  exact ⟨-m, e, by push_cast; ring, by rwa [abs_neg]⟩

/-- C74: the relative error of `FMTA` is at most `3u + 4u²`, with `u = 2^-p` the unit roundoff, for all floats and any rounding to nearest. -/
theorem C74_fmta {p : ℕ} (hp : 3 ≤ p) {fl : ℝ → ℝ} (h : RoundsToNearest p fl) (conv : Bool) (a : Vec c ℝ dim p1) (b : Vec c ℝ dim p2)
    (x : Vec c ℝ dim p3) (d : Vec c ℝ dim p4) (i : Fin dim) (ha : IsFloat p (a.get i)) (hb : IsFloat p (b.get i)) (hx : IsFloat p (x.get i))
    (hd : IsFloat p (d.get i)) :
    |(Fl.fmta fl conv a b x d).get i - (a.get i * b.get i + x.get i * d.get i)| ≤
      (3 * (2 : ℝ) ^ (-(p : ℤ)) + 4 * ((2 : ℝ) ^ (-(p : ℤ))) ^ 2) * |a.get i * b.get i + x.get i * d.get i| := by
  have := h.kahan hp ha hb hd hx
  rw [mul_comm (x.get i)]
  simp only [Fl.fmta, Fl.add, Fl.fma, Fl.mul, Fl.neg, Vec.opScalar, Vec.get_doBinary, Vec.get_doTernary, Vec.get_fill, mul_neg_one]
  rw [fix h (float_neg (h.mem (d.get i * x.get i))), ← sub_eq_add_neg]
  exact this

/-- C74: in particular the result is zero exactly if `a*b + c*d` is. -/
theorem C74_zero_iff {p : ℕ} (hp : 3 ≤ p) {fl : ℝ → ℝ} (h : RoundsToNearest p fl) (conv : Bool) (a : Vec c ℝ dim p1) (b : Vec c ℝ dim p2)
    (x : Vec c ℝ dim p3) (d : Vec c ℝ dim p4) (i : Fin dim) (ha : IsFloat p (a.get i)) (hb : IsFloat p (b.get i)) (hx : IsFloat p (x.get i))
    (hd : IsFloat p (d.get i)) : (Fl.fmta fl conv a b x d).get i = 0 ↔ a.get i * b.get i + x.get i * d.get i = 0 := by
  have := C74_fmta hp h conv a b x d i ha hb hx hd
  constructor
  · intro h0
    rw [h0, zero_sub, abs_neg] at this
    have hu8 : (2 : ℝ) ^ (-(p : ℤ)) ≤ 1 / 8 := by
      have : (2 : ℝ) ^ (-(p : ℤ)) ≤ (2 : ℝ) ^ (-3 : ℤ) := zpow_le_zpow_right₀ (by norm_num) (by omega)
      norm_num at this ⊢
      exact this
    have hu0 : 0 < (2 : ℝ) ^ (-(p : ℤ)) := zpow_pos (by norm_num) _
    have hn := abs_nonneg (a.get i * b.get i + x.get i * d.get i)
    generalize (2 : ℝ) ^ (-(p : ℤ)) = u at *
    have h1 : 3 * u + 4 * u ^ 2 ≤ 1 / 2 := by nlinarith
    exact abs_nonpos_iff.1 (by nlinarith)
  · intro h0
    rw [h0, sub_zero, abs_zero, mul_zero] at this
    exact abs_nonpos_iff.1 this

/-- `2^30 + 1` times `2^30 - 1` minus `2^60` is `-1`; in 31-bit arithmetic the rounded products are equal. -/
example : ∃ a b x d : Vec Cfg.sse ℝ 4 false, (∀ i, IsFloat 31 (a.get i) ∧ IsFloat 31 (b.get i) ∧ IsFloat 31 (x.get i) ∧ IsFloat 31 (d.get i)) ∧
    RoundsToNearest 31 (flAway 31) ∧ ∀ i, a.get i * b.get i + x.get i * d.get i = -1 :=
  ⟨.ofFn fun _ => 2 ^ 30 + 1, .ofFn fun _ => 2 ^ 30 - 1, .ofFn fun _ => -2 ^ 30, .ofFn fun _ => 2 ^ 30, fun i => by
      simp only [Vec.get_ofFn]
      exact ⟨⟨2 ^ 30 + 1, 0, by norm_num, by norm_num⟩, ⟨2 ^ 30 - 1, 0, by norm_num, by norm_num⟩, ⟨-2 ^ 30, 0, by norm_num, by norm_num⟩,
        ⟨2 ^ 30, 0, by norm_num, by norm_num⟩⟩, flAway_roundsToNearest (by norm_num), fun i => by simp only [Vec.get_ofFn]; norm_num⟩

/-- C75: every component of the 3D cross product has a relative error of at most `3u + 4u²`. -/
theorem C75_cross3 {p : ℕ} (hp : 3 ≤ p) {fl : ℝ → ℝ} (h : RoundsToNearest p fl) (conv : Bool) (junk : ℕ → ℝ) (a b : Vec c ℝ 3 pk)
    (ha : ∀ i, IsFloat p (a.get i)) (hb : ∀ i, IsFloat p (b.get i)) (i : Fin 3) :
    |(Fl.cross3 fl conv junk a b).get i - crossProduct a.get b.get i| ≤
      (3 * (2 : ℝ) ^ (-(p : ℤ)) + 4 * ((2 : ℝ) ^ (-(p : ℤ))) ^ 2) * |crossProduct a.get b.get i| := by
  have hn : ∀ i, (Fl.neg fl conv (Swz.toVec junk junk a ![2, 0, 1] : Vec c ℝ 3 pk)).get i = -a.get (![2, 0, 1] i) := by
    intro i
    simp only [Fl.neg, Vec.opScalar, Vec.get_doBinary, Vec.get_fill, mul_neg_one, C05_read]
    exact fix h (float_neg (ha _))
  have := C74_fmta hp h conv (Swz.toVec junk junk a ![1, 2, 0] : Vec c ℝ 3 pk) (Swz.toVec junk junk b ![2, 0, 1] : Vec c ℝ 3 pk)
    (Fl.neg fl conv (Swz.toVec junk junk a ![2, 0, 1] : Vec c ℝ 3 pk)) (Swz.toVec junk junk b ![1, 2, 0] : Vec c ℝ 3 pk) i
    (by rw [C05_read]; exact ha _) (by rw [C05_read]; exact hb _) (by rw [hn]; exact float_neg (ha _)) (by rw [C05_read]; exact hb _)
  simp only [hn, C05_read] at this
  have e : a.get (![1, 2, 0] i) * b.get (![2, 0, 1] i) + -a.get (![2, 0, 1] i) * b.get (![1, 2, 0] i) = crossProduct a.get b.get i := by
    rw [cross_apply]
    fin_cases i <;> simp <;> ring
  rw [e] at this
  exact this

/-- C75: a component is zero exactly if the true component is; the cross product vanishes exactly for linearly dependent vectors. -/
theorem C75_zero_iff {p : ℕ} (hp : 3 ≤ p) {fl : ℝ → ℝ} (h : RoundsToNearest p fl) (conv : Bool) (junk : ℕ → ℝ) (a b : Vec c ℝ 3 pk)
    (ha : ∀ i, IsFloat p (a.get i)) (hb : ∀ i, IsFloat p (b.get i)) (i : Fin 3) :
    (Fl.cross3 fl conv junk a b).get i = 0 ↔ crossProduct a.get b.get i = 0 := by
  have hn : ∀ i, (Fl.neg fl conv (Swz.toVec junk junk a ![2, 0, 1] : Vec c ℝ 3 pk)).get i = -a.get (![2, 0, 1] i) := by
    intro i
    simp only [Fl.neg, Vec.opScalar, Vec.get_doBinary, Vec.get_fill, mul_neg_one, C05_read]
    exact fix h (float_neg (ha _))
  have := C74_zero_iff hp h conv (Swz.toVec junk junk a ![1, 2, 0] : Vec c ℝ 3 pk) (Swz.toVec junk junk b ![2, 0, 1] : Vec c ℝ 3 pk)
    (Fl.neg fl conv (Swz.toVec junk junk a ![2, 0, 1] : Vec c ℝ 3 pk)) (Swz.toVec junk junk b ![1, 2, 0] : Vec c ℝ 3 pk) i
    (by rw [C05_read]; exact ha _) (by rw [C05_read]; exact hb _) (by rw [hn]; exact float_neg (ha _)) (by rw [C05_read]; exact hb _)
  simp only [hn, C05_read] at this
  have e : a.get (![1, 2, 0] i) * b.get (![2, 0, 1] i) + -a.get (![2, 0, 1] i) * b.get (![1, 2, 0] i) = crossProduct a.get b.get i := by
    rw [cross_apply]
    fin_cases i <;> simp <;> ring
  rw [e] at this
  exact this

/-- Nearly parallel single-precision vectors. -/
example : ∃ a b : Vec Cfg.sse ℝ 3 false, (∀ i, IsFloat 24 (a.get i)) ∧ (∀ i, IsFloat 24 (b.get i)) ∧ RoundsToNearest 24 (flAway 24) ∧
    crossProduct a.get b.get = ![0, 0, 1] :=
  ⟨.ofFn ![2 ^ 23 + 1, 2 ^ 23, 0], .ofFn ![2 ^ 23 + 2, 2 ^ 23 + 1, 0], fun i => by
      rw [Vec.get_ofFn]
      fin_cases i
      · exact ⟨2 ^ 23 + 1, 0, by norm_num, by norm_num⟩
      · exact ⟨2 ^ 23, 0, by norm_num, by norm_num⟩
      · exact ⟨0, 0, by norm_num, by norm_num⟩, fun i => by
      rw [Vec.get_ofFn]
      fin_cases i
      · exact ⟨2 ^ 23 + 2, 0, by norm_num, by norm_num⟩
      · exact ⟨2 ^ 23 + 1, 0, by norm_num, by norm_num⟩
      · exact ⟨0, 0, by norm_num, by norm_num⟩, flAway_roundsToNearest (by norm_num), by
      rw [cross_apply]
      simp only [Vec.get_ofFn]
      funext i
      fin_cases i <;> norm_num [show (![(8388610 : ℝ), 8388609, 0] 2) = 0 from rfl, show (![(8388609 : ℝ), 8388608, 0] 2) = 0 from rfl]⟩

end Mathter.Props
