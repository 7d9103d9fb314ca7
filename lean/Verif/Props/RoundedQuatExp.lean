import Verif.Lemmas.RoundedArea
import Verif.Lemmas.RoundedQuatExp
import Verif.Props.RoundedGram
import Mathlib.Analysis.Quaternion
import Mathlib.Analysis.Real.Pi.Bounds
import Mathlib.Analysis.SpecialFunctions.Trigonometric.Arctan

/-!
# Property C135: rounding of `Angle`, `Axis`, `Exp`, `Log` and `Pow` of quaternions

The functions of `<cmath>` have a relative error of at most `e`, `LengthPrecise` and `Length` have the relative error of six roundings and `NormalizePrecise`
that of five; see the `example`s.
-/

namespace Mathter.Props
open Mathter
variable {l : QLayout} {fl : ℝ → ℝ} {u e : ℝ} {p : ℕ} {L : Fl.CMath} {len : (Fin 3 → ℝ) → ℝ} {norm : (Fin 3 → ℝ) → Fin 3 → ℝ}

/-- C135, `Angle`: the relative error is small for every quaternion, also for very small rotations. -/
theorem C135_angle (h : Rounding fl u) (hL : L.Accurate p e) (hlen : ∀ v, |len v - norm2 v| ≤ ((1 + u) ^ 6 - 1) * norm2 v)
    (hg : (1 + u) ^ 6 - 1 ≤ 1 / 1000) (he0 : 0 ≤ e) (he : e ≤ 1 / 1000) (q : Quat ℝ l) :
    |Fl.qangle fl L len q - 2 * Complex.arg ⟨q.s, norm2 q.vec⟩| ≤ 2 * ((1 + u) ^ 6 - 1 + e) * (2 * Complex.arg ⟨q.s, norm2 q.vec⟩) := by
  have hu := h.u_nonneg
  have g6 : 6 * u ≤ (1 + u) ^ 6 - 1 := by
    have := one_add_mul_le_pow (show (-2 : ℝ) ≤ u by linarith) 6
    push_cast at this; linarith
  unfold Fl.qangle
  have d := hlen q.vec
  have n0 := norm2_nonneg q.vec
  have k1 := hL.atan2 (len q.vec) q.s
  have k2 := h.err (2 * L.atan2 (len q.vec) q.s)
  have a0 : 0 ≤ Complex.arg ⟨q.s, norm2 q.vec⟩ := Complex.arg_nonneg_iff.2 n0
  generalize len q.vec = ℓ' at *
  generalize norm2 q.vec = ℓ at *
  generalize (1 + u) ^ 6 - 1 = g at *
  have k3 : |Complex.arg ⟨q.s, ℓ'⟩ - Complex.arg ⟨q.s, ℓ⟩| ≤ 1.6 * g * Complex.arg ⟨q.s, ℓ⟩ := by
    rcases eq_or_lt_of_le n0 with h0 | h0
    · subst h0
      have : ℓ' = 0 := by simpa using d
      subst this
      rw [sub_self, abs_zero]
      have : 0 ≤ g := by linarith
      positivity
    · have hp : 0 < ℓ' := by
        have := (abs_le.1 d).1
        nlinarith
      refine (Fl.arg_diff h0 hp d).trans (mul_le_mul_of_nonneg_right (mul_le_mul_of_nonneg_right ?_ (by linarith)) a0)
      linarith [Real.pi_lt_d2]
  generalize Complex.arg ⟨q.s, ℓ'⟩ = A' at *
  generalize Complex.arg ⟨q.s, ℓ⟩ = A at *
  generalize L.atan2 ℓ' q.s = T at *
  have hg0 : 0 ≤ g := by linarith
  have hA : |A'| ≤ 1.0016 * A := by
    have := abs_sub_abs_le_abs_sub A' A
    rw [abs_of_nonneg a0] at this
    have : 1.6 * g * A ≤ 1.6 * (1 / 1000) * A := by gcongr
    linarith
  have k4 : |T - A| ≤ (1.0016 * e + 1.6 * g) * A := by
    have := abs_sub_le T A' A
    have : e * |A'| ≤ e * (1.0016 * A) := by gcongr
    linarith
  have hT : |2 * T| ≤ 2.01 * A := by
    rw [abs_mul, abs_two]
    have := abs_sub_abs_le_abs_sub T A
    rw [abs_of_nonneg a0] at this
    have : (1.0016 * e + 1.6 * g) * A ≤ (1.0016 * (1 / 1000) + 1.6 * (1 / 1000)) * A := by gcongr
    linarith
  have t := abs_sub_le (fl (2 * T)) (2 * T) (2 * A)
  have t2 : |2 * T - 2 * A| = 2 * |T - A| := by rw [← mul_sub, abs_mul, abs_two]
  have t3 : u * |2 * T| ≤ u * (2.01 * A) := by gcongr
  have t4 : u * A ≤ g / 6 * A := by gcongr; linarith
  have t5 : 0 ≤ g * A := by positivity
  have t6 : 0 ≤ e * A := by positivity
  linarith

/-- C135, `Axis`: the axis of a quaternion with a nonzero vector part, however small. -/
theorem C135_axis (h : Rounding fl u) (hn : Fl.IsNormalize u 5 norm) (hg : (1 + u) ^ 6 - 1 ≤ 1 / 1000) (q : Quat ℝ l) (hq : q.vec ≠ 0) :
    norm2 (fun i => Fl.qaxis norm q i - q.vec i / norm2 q.vec) ≤ 2 * ((1 + u) ^ 6 - 1) := by
  have hu := h.u_nonneg
  have g56 : (1 + u) ^ 5 - 1 ≤ (1 + u) ^ 6 - 1 := sub_le_sub_right (pow_le_pow_right₀ (by linarith) (by norm_num)) 1
  have : _ ≤ 2 * ((1 + u) ^ 5 - 1) :=
    Fl.normalize_err h hn (by norm_num) (by norm_num) (show (1 + u) ^ (3 + 2) - 1 ≤ 1 / 1000 from g56.trans hg) hq
  unfold Fl.qaxis
  refine this.trans ?_
  linarith

/-- C135, `Exp`: the scalar part, relative to the length `exp(s)` of the result, and the vector part, which is proportional to the vector part of the argument.
(The exponential of `s + v` is `exp(s) (cos|v| + sin|v| v / |v|)`, see `C49_exp`.) -/
theorem C135_exp (h : Rounding fl u) (hL : L.Accurate p e) (hlen : ∀ v, |len v - norm2 v| ≤ ((1 + u) ^ 6 - 1) * norm2 v) (hn : Fl.IsNormalize u 5 norm)
    (hg : (1 + u) ^ 6 - 1 ≤ 1 / 1000) (he0 : 0 ≤ e) (he : e ≤ 1 / 1000) (q : Quat ℝ l) :
    |(Fl.qexp fl L len norm q).s - Real.exp q.s * Real.cos (norm2 q.vec)| ≤
      (2 * ((1 + u) ^ 6 - 1) * (1 + norm2 q.vec) + 3 * e) * Real.exp q.s ∧
    norm2 (fun i => (Fl.qexp fl L len norm q).vec i - Real.exp q.s * (q.vec i / norm2 q.vec * Real.sin (norm2 q.vec))) ≤
      4 * ((1 + u) ^ 6 - 1 + e) * (norm2 q.vec * Real.exp q.s) := by
  have hu := h.u_nonneg
  have g6 : 6 * u ≤ (1 + u) ^ 6 - 1 := by
    have := one_add_mul_le_pow (show (-2 : ℝ) ≤ u by linarith) 6
    push_cast at this; linarith
  obtain ⟨hs, hv⟩ := Fl.qexp_parts fl L len norm q
  rw [hs, hv]
  have n0 := norm2_nonneg q.vec
  have hE := Real.exp_pos q.s
  constructor
  · refine (Fl.exp_scalar h hL (by linarith) he0 he n0 (by linarith) (hlen q.vec)).trans (mul_le_mul_of_nonneg_right ?_ hE.le)
    have : 0 ≤ ((1 + u) ^ 6 - 1) * norm2 q.vec := mul_nonneg (by linarith) n0
    linarith
  · by_cases hz : q.vec = 0
    · have e0 : norm2 (0 : Fin 3 → ℝ) = 0 := norm2_zero
      have l0 : len (0 : Fin 3 → ℝ) = 0 := by
        have := hlen 0
        rw [e0, mul_zero, sub_zero] at this
        exact abs_nonpos_iff.1 this
      have s0 : L.sin 0 = 0 := by
        have := hL.sin 0
        rw [Real.sin_zero, abs_zero, mul_zero, sub_zero] at this
        exact abs_nonpos_iff.1 this
      have f0 : fl 0 = 0 := by
        have := h.err 0
        rw [abs_zero, mul_zero, sub_zero] at this
        exact abs_nonpos_iff.1 this
      simp only [hz, e0, l0, s0, mul_zero, f0, Real.sin_zero, sub_zero, zero_mul]
      exact norm2_zero.le
    · have nz := Fl.norm2_pos hz
      have hb : norm2 (fun i => q.vec i / norm2 q.vec) = 1 := by
        rw [show (fun i => q.vec i / norm2 q.vec) = fun i => (norm2 q.vec)⁻¹ * q.vec i from funext fun i => by rw [div_eq_inv_mul], norm2_smul,
          abs_of_pos (inv_pos.2 nz), inv_mul_cancel₀ nz.ne']
      have g56 : (1 + u) ^ 5 - 1 ≤ (1 + u) ^ 6 - 1 := sub_le_sub_right (pow_le_pow_right₀ (by linarith) (by norm_num)) 1
      have hab : _ ≤ 2 * ((1 + u) ^ 5 - 1) := Fl.normalize_err h hn (by norm_num) (by norm_num) (show (1 + u) ^ (3 + 2) - 1 ≤ 1 / 1000 from g56.trans hg) hz
      have hab' : norm2 (fun i => norm q.vec i - q.vec i / norm2 q.vec) ≤ 2 * ((1 + u) ^ 6 - 1) := hab.trans (by linarith)
      refine (Fl.exp_vector h hL (s := q.s) (by linarith) he0 he n0 (by linarith) hg (by linarith) (by linarith) (hlen q.vec) hb hab').trans
        (mul_le_mul_of_nonneg_right ?_ (by positivity))
      linarith

private theorem fl_le_one (hfl : RoundsToNearest p fl) (hp : 1 ≤ p) {x : ℝ} (hx : |x| ≤ 1) : |fl x| ≤ 1 := by
  have one : IsFloat p (1 : ℝ) := ⟨1, 0, by simp, by rw [abs_one]; exact one_lt_pow₀ (by norm_num) (by omega)⟩
  have neg : IsFloat p (-1 : ℝ) := ⟨-1, 0, by simp, by rw [abs_neg, abs_one]; exact one_lt_pow₀ (by norm_num) (by omega)⟩
  obtain ⟨a, b⟩ := abs_le.1 hx
  have h1 := hfl.nearest x 1 one
  have h2 := hfl.nearest x (-1) neg
  rw [abs_of_nonneg (show 0 ≤ 1 - x by linarith)] at h1
  rw [abs_of_nonpos (show -1 - x ≤ 0 by linarith)] at h2
  have c1 := (abs_le.1 h1).2
  have c2 := (abs_le.1 h2).1
  rw [abs_le]; constructor <;> linarith

/-- C135, `Log` (partial: the error of the vector part is multiplied with `|q| / |v|`, and is bounded by a square root close to the real numbers). The logarithm
of `s + v` is `log|q| + arccos(s / |q|) v / |v|`, see `C49_exp_log`. -/
theorem C135_log_partial (hp : 1 ≤ p) (hfl : RoundsToNearest p fl) (hu : u = 2 ^ (-(p : ℤ))) (hL : L.Accurate p e)
    (hlen : ∀ v, |len v - norm2 v| ≤ ((1 + u) ^ 6 - 1) * norm2 v) (hn : Fl.IsNormalize u 5 norm) (hg : (1 + u) ^ 6 - 1 ≤ 1 / 1000) (he0 : 0 ≤ e)
    (he : e ≤ 1 / 1000) (q : Quat ℝ l) (hs : IsFloat p q.s) {r : ℝ} (hr : r = Real.sqrt (q.s ^ 2 + norm2 q.vec ^ 2)) (hq : 0 < r) :
    ∃ g, Fl.qlog fl L len norm q = some g ∧ |g.s - Real.log r| ≤ e * |Real.log r| + 2 * ((1 + u) ^ 6 - 1 + e) ∧
      (q.vec = 0 → 0 < q.s → g.vec = 0) ∧
      (q.vec ≠ 0 → norm2 (fun i => g.vec i - q.vec i / norm2 q.vec * Real.arccos (q.s / r)) ≤ 11 * ((1 + u) ^ 6 - 1 + e) * (r / norm2 q.vec) ∧
        norm2 (fun i => g.vec i - q.vec i / norm2 q.vec * Real.arccos (q.s / r)) ≤ 4 * Real.sqrt ((1 + u) ^ 6 - 1 + e)) := by
  have h : Rounding fl u := hu ▸ hfl.rounding hp
  have hu0 := h.u_nonneg
  have g6 : 6 * u ≤ (1 + u) ^ 6 - 1 := by
    have := one_add_mul_le_pow (show (-2 : ℝ) ≤ u by linarith) 6
    push_cast at this; linarith
  have n0 := norm2_nonneg q.vec
  have hh : |L.hypot q.s (len q.vec) - r| ≤ (1.001 * e + ((1 + u) ^ 6 - 1)) * r := by
    rw [hr]; exact Fl.hypot_err hL he0 n0 (by linarith) hg (hlen q.vec)
  have hge := hL.le_hypot q.s (len q.vec) hs
  have r2 : r ^ 2 = q.s ^ 2 + norm2 q.vec ^ 2 := by rw [hr, Real.sq_sqrt (by positivity)]
  have hsr : |q.s| ≤ r := by
    rw [hr]; exact Real.abs_le_sqrt (by nlinarith [sq_nonneg (norm2 q.vec)])
  have hlr : norm2 q.vec ≤ r := by
    rw [hr]; exact Real.le_sqrt_of_sq_le (by nlinarith [sq_nonneg q.s])
  clear hr
  have l1 := Fl.log_err hL he0 he hq (by linarith) hh
  have l2 := Fl.ratio_err h (by linarith) (s := q.s) hq hsr (by linarith) hh
  have hpos : 0 < L.hypot q.s (len q.vec) := by
    have := (abs_le.1 hh).1
    nlinarith
  have hρ : |fl (q.s / L.hypot q.s (len q.vec))| ≤ 1 := by
    refine fl_le_one hfl hp ?_
    rw [abs_div, abs_of_pos hpos, div_le_one hpos]
    exact hge
  unfold Fl.qlog
  simp only
  rw [if_neg hpos.ne', if_neg (not_lt.2 hρ)]
  refine ⟨_, rfl, ?_, ?_, ?_⟩
  · rw [Quat.s_ofParts]
    linarith
  · intro hz hp0
    rw [Quat.vec_ofParts]
    have e0 : norm2 (0 : Fin 3 → ℝ) = 0 := norm2_zero
    have l0 : len (0 : Fin 3 → ℝ) = 0 := by
      have := hlen 0
      rw [e0, mul_zero, sub_zero] at this
      exact abs_nonpos_iff.1 this
    have one : fl 1 = 1 := hfl.fixed ⟨1, 0, by simp, by rw [abs_one]; exact one_lt_pow₀ (by norm_num) (by omega)⟩
    have ac : L.acos 1 = 0 := by
      have := hL.acos 1 (by simp)
      rw [Real.arccos_one, mul_zero, sub_zero] at this
      exact abs_nonpos_iff.1 this
    have f0 : fl 0 = 0 := by
      have := h.err 0
      rw [abs_zero, mul_zero, sub_zero] at this
      exact abs_nonpos_iff.1 this
    funext t
    rw [hz, l0, hL.hypot_zero _ hs, abs_of_pos hp0, div_self hp0.ne', one, ac, mul_zero, f0]
    rfl
  · intro hz
    have nz := Fl.norm2_pos hz
    have hb : norm2 (fun i => q.vec i / norm2 q.vec) = 1 := by
      rw [show (fun i => q.vec i / norm2 q.vec) = fun i => (norm2 q.vec)⁻¹ * q.vec i from funext fun i => by rw [div_eq_inv_mul], norm2_smul,
        abs_of_pos (inv_pos.2 nz), inv_mul_cancel₀ nz.ne']
    have g56 : (1 + u) ^ 5 - 1 ≤ (1 + u) ^ 6 - 1 := sub_le_sub_right (pow_le_pow_right₀ (by linarith) (by norm_num)) 1
    have hab : _ ≤ 2 * ((1 + u) ^ 5 - 1) := Fl.normalize_err h hn (by norm_num) (by norm_num) (show (1 + u) ^ (3 + 2) - 1 ≤ 1 / 1000 from g56.trans hg) hz
    have hab' : norm2 (fun i => norm q.vec i - q.vec i / norm2 q.vec) ≤ 2 * ((1 + u) ^ 6 - 1) := hab.trans (by linarith)
    rw [Quat.vec_ofParts]
    have ac := hL.acos _ hρ
    generalize fl (q.s / L.hypot q.s (len q.vec)) = ρ at *
    have hx : |q.s / r| ≤ 1 := by rw [abs_div, abs_of_pos hq, div_le_one hq]; exact hsr
    obtain ⟨x1, x2⟩ := abs_le.1 hx
    obtain ⟨y1, y2⟩ := abs_le.1 hρ
    have sn : Real.sin (Real.arccos (q.s / r)) = norm2 q.vec / r := by
      rw [Real.sin_arccos, show 1 - (q.s / r) ^ 2 = (norm2 q.vec / r) ^ 2 by rw [div_pow, div_pow, r2]; field_simp [show q.s ^ 2 + norm2 q.vec ^ 2 ≠ 0 by rw [← r2]; positivity]; ring,
        Real.sqrt_sq (by positivity)]
    obtain ⟨A, B⟩ := Fl.angle_diff (Real.arccos_nonneg (q.s / r)) (Real.arccos_le_pi _) (Real.arccos_nonneg ρ) (Real.arccos_le_pi ρ)
    rw [Real.cos_arccos x1 x2, Real.cos_arccos y1 y2] at A B
    rw [sn] at A
    have θ0 := Real.arccos_nonneg (q.s / r)
    have θ1 := Real.arccos_le_pi (q.s / r)
    have φ0 := Real.arccos_nonneg ρ
    have φ1 := Real.arccos_le_pi ρ
    have pi1 := Real.pi_gt_d2
    have pi2 := Real.pi_lt_d2
    have main : ∀ D, |Real.arccos ρ - Real.arccos (q.s / r)| ≤ D →
        norm2 (fun i => fl (norm q.vec i * L.acos ρ) - q.vec i / norm2 q.vec * Real.arccos (q.s / r)) ≤
          1.02 * (e * 3.15 + D) + (1.02 * u + 2 * ((1 + u) ^ 6 - 1)) * 3.15 := by
      intro D hD
      refine Fl.dir_mul h (by linarith) (by linarith) (by linarith) hb hab' ?_ ?_
      · have := abs_sub_le (L.acos ρ) (Real.arccos ρ) (Real.arccos (q.s / r))
        have : e * Real.arccos ρ ≤ e * 3.15 := by gcongr; linarith
        linarith
      · rw [abs_of_nonneg θ0]; linarith
    generalize (1 + u) ^ 6 - 1 = γ at *
    have hτ0 := abs_nonneg (ρ - q.s / r)
    have hγ0 : 0 ≤ γ := by linarith
    have τ : |ρ - q.s / r| ≤ 1.25 * γ + 1.05 * e := by linarith
    constructor
    · have hD : |Real.arccos ρ - Real.arccos (q.s / r)| ≤ 3.15 * (1.25 * γ + 1.05 * e) * (r / norm2 q.vec) := by
        rw [← mul_div_assoc, le_div_iff₀ nz]
        rw [← mul_div_assoc, div_le_iff₀ hq] at A
        refine A.trans ?_
        have : Real.pi * |ρ - q.s / r| ≤ 3.15 * (1.25 * γ + 1.05 * e) := mul_le_mul (by linarith) τ hτ0 (by norm_num)
        exact mul_le_mul_of_nonneg_right this hq.le
      have one : 1 ≤ r / norm2 q.vec := by rw [one_le_div nz]; exact hlr
      refine (main _ hD).trans ?_
      generalize r / norm2 q.vec = R at *
      have m1 : e ≤ e * R := le_mul_of_one_le_right he0 one
      have m2 : γ ≤ γ * R := le_mul_of_one_le_right hγ0 one
      linarith
    · set w := Real.sqrt (γ + e) with hw
      have w0 : 0 ≤ w := Real.sqrt_nonneg _
      have w2 : w ^ 2 = γ + e := Real.sq_sqrt (by linarith)
      have w1 : w ≤ 0.045 := by
        by_contra hc
        push Not at hc
        nlinarith
      have hD : |Real.arccos ρ - Real.arccos (q.s / r)| ≤ 2.6 * w := by
        refine (pow_le_pow_iff_left₀ (abs_nonneg _) (by positivity) two_ne_zero).1 (B.trans ?_)
        rw [mul_pow, w2]
        have : Real.pi ^ 2 / 2 ≤ 3.15 ^ 2 / 2 := by gcongr
        have : Real.pi ^ 2 / 2 * |ρ - q.s / r| ≤ 3.15 ^ 2 / 2 * (1.25 * γ + 1.05 * e) := mul_le_mul this τ hτ0 (by norm_num)
        linarith
      refine (main _ hD).trans ?_
      have m : w * w ≤ 0.045 * w := by gcongr
      rw [← sq, w2] at m
      linarith

private theorem le_fl (hfl : RoundsToNearest p fl) {x y : ℝ} (hx : IsFloat p x) (h : x ≤ y) : x ≤ fl y := by
  have h1 := hfl.nearest y x hx
  rw [abs_of_nonpos (show x - y ≤ 0 by linarith)] at h1
  have := (abs_le.1 h1).1
  linarith

private theorem float_abs {x : ℝ} (h : IsFloat p x) : IsFloat p |x| := by
  rcases abs_choice x with hx | hx <;> rw [hx]
  · exact h
  · obtain ⟨m, e, rfl, hm⟩ := h
    exact ⟨-m, e, by push_cast; ring, by rwa [abs_neg]⟩

/-- The correctly rounded functions. -/
noncomputable def roundedLibrary (fl : ℝ → ℝ) : Fl.CMath :=
  ⟨fun x => fl (Real.exp x), fun x => fl (Real.log x), fun x => fl (Real.cos x), fun x => fl (Real.sin x), fun x => fl (Real.arccos x),
    fun y x => fl (Complex.arg ⟨x, y⟩), fun x y => fl (Real.sqrt (x ^ 2 + y ^ 2))⟩

/-- C135: correctly rounded functions meet the hypothesis about `<cmath>`. -/
theorem C135_library (hp : 1 ≤ p) (hfl : RoundsToNearest p fl) : (roundedLibrary fl).Accurate p (2 ^ (-(p : ℤ))) := by
  have h := hfl.rounding hp
  have one : fl 1 = 1 := hfl.fixed ⟨1, 0, by simp, by rw [abs_one]; exact one_lt_pow₀ (by norm_num) (by omega)⟩
  refine ⟨fun x => ?_, fun x _ => h.err _, fun x => h.err _, fun x => h.err _, fun x _ => ?_, fun y x => h.err _, fun x y => ?_, fun x y hx => ?_,
    fun x hx => ?_, ?_, ?_⟩
  · have := h.err (Real.exp x)
    rwa [abs_of_pos (Real.exp_pos x)] at this
  · have := h.err (Real.arccos x)
    rwa [abs_of_nonneg (Real.arccos_nonneg x)] at this
  · have := h.err (Real.sqrt (x ^ 2 + y ^ 2))
    rwa [abs_of_nonneg (Real.sqrt_nonneg _)] at this
  · exact le_fl hfl (float_abs hx) (Real.abs_le_sqrt (by nlinarith [sq_nonneg y]))
  · change fl (Real.sqrt (x ^ 2 + 0 ^ 2)) = |x|
    rw [zero_pow two_ne_zero, add_zero, Real.sqrt_sq_eq_abs, hfl.fixed (float_abs hx)]
  · change fl (Real.exp 0) = 1
    rw [Real.exp_zero, one]
  · change fl (Real.cos 0) = 1
    rw [Real.cos_zero, one]

/-- The functions of the library meet the hypotheses in single precision, in every configuration, for every reduction order. -/
example (hfl : RoundsToNearest 24 fl) (c : Cfg) (pk : Bool) {lo hi : ℝ} (hlo : 0 < lo) (hh : lo ≤ hi) (conv : Bool) (tb : RTree (batchSize 3 false))
    (ts : RTree 4) (htb : tb.Valid) (hts : ts.Valid) :
    Rounding fl (2 ^ (-((24 : ℕ) : ℤ))) ∧ (1 + (2 : ℝ) ^ (-((24 : ℕ) : ℤ))) ^ 6 - 1 ≤ 1 / 1000 ∧
      (∀ v, |Fl.lengthPrecise (r := 2) c pk fl lo hi conv tb ts v - norm2 v| ≤ ((1 + (2 : ℝ) ^ (-((24 : ℕ) : ℤ))) ^ 6 - 1) * norm2 v) ∧
      (∀ v, |Fl.length fl conv tb ts (Vec.ofFn v : Vec c ℝ 3 pk) - norm2 v| ≤ ((1 + (2 : ℝ) ^ (-((24 : ℕ) : ℤ))) ^ 6 - 1) * norm2 v) ∧
      Fl.IsNormalize (n := 3) (2 ^ (-((24 : ℕ) : ℤ))) 5 (Fl.normalizePrecise1 c pk fl conv tb ts) := by
  have h := hfl.rounding (show 1 ≤ 24 by norm_num)
  refine ⟨h, by norm_num, Fl.lengthPrecise_err h c pk hlo hh conv tb ts htb hts, fun v => ?_,
    C133_normalize (n := 2) h (by norm_num) c pk conv tb ts htb hts⟩
  have := C76_length h conv tb ts htb hts (Vec.ofFn v : Vec c ℝ 3 pk)
  simp only [Vec.get_ofFn] at this
  refine this.trans (mul_le_mul_of_nonneg_right ?_ (norm2_nonneg v))
  norm_num

/-- C135, `Log` and `Pow` close to the identity: of a quaternion `1 + v` with a vector part shorter than the square root of the unit roundoff, the logarithm is
0 and every power is 1, if `std::hypot` is correctly rounded. -/
theorem C135_small (hp : 2 ≤ p) (hfl : RoundsToNearest p fl) (hu : u = 2 ^ (-(p : ℤ))) (hL : L.Accurate p e)
    (hyp : ∀ x y, L.hypot x y = fl (Real.sqrt (x ^ 2 + y ^ 2))) (hlen : ∀ v, |len v - norm2 v| ≤ ((1 + u) ^ 6 - 1) * norm2 v)
    (hg : (1 + u) ^ 6 - 1 ≤ 1 / 1000) (v : Fin 3 → ℝ) (hv : norm2 v ^ 2 ≤ u) :
    Fl.qlog fl L len norm (Quat.ofParts l 1 v) = some (Quat.ofParts l 0 0) ∧
      ∀ a, Fl.qpow fl L len norm (Quat.ofParts l 1 v) a = some (Quat.ofParts l 1 0) := by
  have h : Rounding fl u := hu ▸ hfl.rounding (by omega)
  have one : fl 1 = 1 := hfl.fixed ⟨1, 0, by simp, by rw [abs_one]; exact one_lt_pow₀ (by norm_num) (by omega)⟩
  have f0 : fl 0 = 0 := by
    have := h.err 0
    rw [abs_zero, mul_zero, sub_zero] at this
    exact abs_nonpos_iff.1 this
  have ac : L.acos 1 = 0 := by
    have := hL.acos 1 (by simp)
    rw [Real.arccos_one, mul_zero, sub_zero] at this
    exact abs_nonpos_iff.1 this
  have lg : L.log 1 = 0 := by
    have := hL.log 1 one_pos
    rw [Real.log_one, abs_zero, mul_zero, sub_zero] at this
    exact abs_nonpos_iff.1 this
  have sn : L.sin 0 = 0 := by
    have := hL.sin 0
    rw [Real.sin_zero, abs_zero, mul_zero, sub_zero] at this
    exact abs_nonpos_iff.1 this
  have l0 : len (0 : Fin 3 → ℝ) = 0 := by
    have := hlen 0
    rw [show norm2 (0 : Fin 3 → ℝ) = 0 from norm2_zero, mul_zero, sub_zero] at this
    exact abs_nonpos_iff.1 this
  have hy : L.hypot 1 (len v) = 1 := by
    rw [hyp]
    have n0 := norm2_nonneg v
    have d := abs_le.1 (hlen v)
    have up : 0 < u := by rw [hu]; positivity
    have k1 : |len v| ≤ 1.001 * norm2 v := by
      have : ((1 + u) ^ 6 - 1) * norm2 v ≤ 1 / 1000 * norm2 v := mul_le_mul_of_nonneg_right hg n0
      rw [abs_le]; constructor <;> linarith
    have k2 : len v ^ 2 < 2 * u := by
      have := sq_le_sq' (by linarith [(abs_le.1 k1).1]) (abs_le.1 k1).2
      rw [mul_pow] at this
      linarith
    have k3 : Real.sqrt (1 ^ 2 + len v ^ 2) < 1 + u := by
      rw [Real.sqrt_lt' (by linarith)]
      nlinarith
    have k4 : 1 ≤ Real.sqrt (1 ^ 2 + len v ^ 2) := by
      rw [Real.one_le_sqrt]
      nlinarith [sq_nonneg (len v)]
    have z : (2 : ℝ) ^ (1 - (p : ℤ)) = 2 * u := by rw [hu, sub_eq_add_neg, zpow_add₀ two_ne_zero, zpow_one]
    have z1 : ((2 ^ (p - 1) : ℤ) : ℝ) * (2 : ℝ) ^ (1 - (p : ℤ)) = 1 := by
      push_cast
      rw [← zpow_natCast, ← zpow_add₀ two_ne_zero, Nat.cast_sub (by omega)]
      simp
    refine (Fl.round_to_grid (by omega) hfl (1 - p) (2 ^ (p - 1)) ?_ ?_ ?_).trans z1
    · rw [abs_of_pos (by positivity)]
      exact pow_le_pow_right₀ (by norm_num) (by omega)
    · rw [show (p : ℤ) - 1 + (1 - p) = 0 by ring, zpow_zero]
      exact k4.trans (le_abs_self _)
    · rw [z1, z, mul_div_cancel_left₀ _ two_ne_zero, abs_sub_comm, abs_of_nonneg (sub_nonneg.2 k4)]
      exact sub_lt_iff_lt_add'.2 k3
  have hlog : Fl.qlog fl L len norm (Quat.ofParts l 1 v) = some (Quat.ofParts l 0 0) := by
    unfold Fl.qlog
    simp only [Quat.s_ofParts, Quat.vec_ofParts, hy, div_one, one, abs_one, lt_irrefl, if_false, one_ne_zero, ac, lg, mul_zero, f0]
    rfl
  refine ⟨hlog, fun a => ?_⟩
  rw [Fl.qpow, hlog, Option.map_some]
  congr 1
  have z : (⟨fun t => fl (a * (Quat.ofParts l (0 : ℝ) 0).elements t)⟩ : Quat ℝ l) = Quat.ofParts l 0 0 := by
    apply Quat.ext_canonical
    funext t
    change fl (a * (Quat.ofParts l (0 : ℝ) 0).canonical t) = _
    rw [Quat.canonical_ofParts]
    refine Fin.cases ?_ (fun t => ?_) t <;> simp [f0]
  rw [z]
  obtain ⟨p1, p2⟩ := Fl.qexp_parts fl L len norm (Quat.ofParts l 0 0)
  rw [Quat.s_ofParts, Quat.vec_ofParts, l0, hL.exp_zero, hL.cos_zero, mul_one, one] at p1
  simp only [Quat.vec_ofParts, Quat.s_ofParts, l0, sn, mul_zero, f0] at p2
  apply Quat.ext_canonical
  funext t
  refine Fin.cases ?_ (fun t => ?_) t
  · have : (Quat.ofParts l (1 : ℝ) 0).canonical 0 = 1 := by rw [Quat.canonical_ofParts]; rfl
    rw [this, ← Quat.s_eq, p1]
  · rw [Quat.canonical_ofParts, Fin.cons_succ]
    exact congrFun p2 t

/-- The sine of `n` times a small angle. -/
private theorem pow_small : 1 / 2 ≤ (((⟨1, 1 / 8192⟩ : ℂ)) ^ 8192).im := by
  have r0 : (1 : ℝ) ≤ Real.sqrt (1 + (1 / 8192) ^ 2) := by rw [Real.one_le_sqrt]; norm_num
  have r1 : Real.sqrt (1 + (1 / 8192) ^ 2) ≤ 1.01 := by rw [Real.sqrt_le_left (by norm_num)]; norm_num
  have hc := Real.cos_arctan (1 / 8192)
  have hs := Real.sin_arctan (1 / 8192)
  have a0 : 0 < Real.arctan (1 / 8192) := Real.arctan_pos.2 (by norm_num)
  have a1 : Real.arctan (1 / 8192) ≤ 1 / 8192 := by
    have := Real.le_tan a0.le (Real.arctan_lt_pi_div_two _)
    rwa [Real.tan_arctan] at this
  have a2 := Real.sin_le a0.le
  rw [hs] at a2
  set r := Real.sqrt (1 + (1 / 8192) ^ 2)
  have a3 : 0.99 / 8192 ≤ 1 / 8192 / r := by rw [le_div_iff₀ (by linarith)]; linarith
  generalize Real.arctan (1 / 8192) = θ at *
  have hz : (⟨1, 1 / 8192⟩ : ℂ) = (r : ℂ) * (Complex.cos θ + Complex.sin θ * Complex.I) := by
    rw [← Complex.ofReal_cos, ← Complex.ofReal_sin, hc, hs]
    apply Complex.ext
    · simp only [Complex.mul_re, Complex.add_re, Complex.add_im, Complex.ofReal_re, Complex.ofReal_im, Complex.mul_im, Complex.I_re, Complex.I_im]
      field_simp; ring
    · simp only [Complex.mul_re, Complex.add_re, Complex.add_im, Complex.ofReal_re, Complex.ofReal_im, Complex.mul_im, Complex.I_re, Complex.I_im]
      field_simp; ring
  rw [hz, mul_pow, Complex.cos_add_sin_mul_I_pow]
  have him : ((r : ℂ) ^ 8192 * (Complex.cos ((8192 : ℕ) * θ) + Complex.sin ((8192 : ℕ) * θ) * Complex.I)).im = r ^ 8192 * Real.sin (8192 * θ) := by
    rw [← Complex.ofReal_pow]
    have e : ((8192 : ℕ) : ℂ) * (θ : ℂ) = ((8192 * θ : ℝ) : ℂ) := by push_cast; ring
    rw [e, ← Complex.ofReal_cos, ← Complex.ofReal_sin]
    simp only [Complex.mul_re, Complex.add_re, Complex.add_im, Complex.ofReal_re, Complex.ofReal_im, Complex.mul_im, Complex.I_re, Complex.I_im]
    ring
  rw [him]
  have pi1 := Real.pi_gt_d2
  have pi2 := Real.pi_lt_d2
  have j := Real.mul_le_sin (show 0 ≤ 8192 * θ by linarith) (by linarith)
  have j2 : 0.5 ≤ 2 / Real.pi * (8192 * θ) := by
    rw [div_mul_eq_mul_div, le_div_iff₀ Real.pi_pos]
    linarith
  have j3 : 1 ≤ r ^ 8192 := one_le_pow₀ r0
  nlinarith

/-- C135 is violated for `Log` and `Pow`: in single precision the logarithm of `1 + 2^-13 i` has no vector part, and its power of 8192, a rotation by more than
110 degrees, is computed as 1. -/
theorem C135_pow_violated : ∃ q : Quat ℝ l, (∀ t, IsFloat 24 (q.elements t)) ∧ 1 / 2 ≤ (q.toH ^ 8192).imI ∧
    ∀ fl, RoundsToNearest 24 fl → ∀ (c : Cfg) (pk : Bool) (lo hi : ℝ), 0 < lo → lo ≤ hi → ∀ (conv : Bool) (tb : RTree (batchSize 3 false)) (ts : RTree 4),
      tb.Valid → ts.Valid → ∃ g x, Fl.qlog fl (roundedLibrary fl) (Fl.lengthPrecise (r := 2) c pk fl lo hi conv tb ts)
        (Fl.normalizePrecise1 (n := 2) c pk fl conv tb ts) q = some g ∧ g.vec = 0 ∧
        Fl.qpow fl (roundedLibrary fl) (Fl.lengthPrecise (r := 2) c pk fl lo hi conv tb ts) (Fl.normalizePrecise1 (n := 2) c pk fl conv tb ts) q 8192 = some x ∧
        x.s = 1 ∧ x.vec = 0 := by
  refine ⟨Quat.ofParts l 1 ![1 / 8192, 0, 0], fun t => ?_, ?_, ?_⟩
  · have f1 : IsFloat 24 (1 : ℝ) := ⟨1, 0, by norm_num, by norm_num⟩
    have f2 : IsFloat 24 (1 / 8192 : ℝ) := ⟨1, -13, by norm_num, by norm_num⟩
    have f3 : IsFloat 24 (0 : ℝ) := ⟨0, 0, by norm_num, by norm_num⟩
    cases l <;> fin_cases t <;> first | exact f1 | exact f2 | exact f3
  · have e : (Quat.ofParts l (1 : ℝ) ![1 / 8192, 0, 0]).toH = Quaternion.ofComplex ⟨1, 1 / 8192⟩ := by
      apply QuaternionAlgebra.ext <;> simp [Quat.i_ofParts]
    rw [e, ← map_pow]
    exact pow_small
  · intro fl hfl c pk lo hi hlo hh conv tb ts htb hts
    have h := hfl.rounding (show 1 ≤ 24 by norm_num)
    obtain ⟨a, b⟩ := C135_small (l := l) (norm := Fl.normalizePrecise1 (n := 2) c pk fl conv tb ts) (by norm_num) hfl rfl (C135_library (by norm_num) hfl)
      (fun _ _ => rfl) (Fl.lengthPrecise_err h c pk hlo hh conv tb ts htb hts) (by norm_num) ![1 / 8192, 0, 0]
      (by rw [norm2_sq, Fin.sum_univ_three]; simp; norm_num)
    exact ⟨_, _, a, Quat.vec_ofParts _ _, b 8192, Quat.s_ofParts _ _, Quat.vec_ofParts _ _⟩

end Mathter.Props
