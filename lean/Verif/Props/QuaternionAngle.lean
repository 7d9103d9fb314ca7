import Mathlib.Analysis.SpecialFunctions.Complex.Arg
import Verif.Model.Transforms
import Verif.Lemmas.Quaternion
import Verif.Lemmas.VectorMath
import Verif.Props.Quaternion

/-! # Axis and angle of a quaternion (C50) -/

namespace Mathter.Props
open Mathter Mathter.Quat
variable {l : QLayout}

private theorem np_ne {v : Fin 3 → ℝ} (hv : v ≠ 0) : normalizePrecise1 v = divReal v (length v) := normalizePrecise_ne_zero _ _ hv

private theorem np_zero : normalizePrecise1 (0 : Fin 3 → ℝ) = ![1, 0, 0] := by
  rw [normalizePrecise1, normalizePrecise, if_pos ((scaleElements_eq_zero _).2 rfl)]
  funext i
  fin_cases i <;> rfl

private theorem vec_rot (u : Fin 3 → ℝ) (θ : ℝ) : (rotationQuatAxisAngle l u θ).vec = Real.sin (θ / 2) • u := by
  rw [rotationQuatAxisAngle, vec_ofParts]; rfl

private theorem s_rot (u : Fin 3 → ℝ) (θ : ℝ) : (rotationQuatAxisAngle l u θ).s = Real.cos (θ / 2) := by
  rw [rotationQuatAxisAngle, s_ofParts]

private theorem len_rot {u : Fin 3 → ℝ} (hu : length u = 1) (θ : ℝ) : length (rotationQuatAxisAngle l u θ).vec = |Real.sin (θ / 2)| := by
  rw [vec_rot, length_smul, hu, mul_one, Real.norm_eq_abs]

/-- C50: a quaternion built from a unit axis and an angle strictly between 0 and a full turn gives both back. -/
theorem C50_axis_angle (u : Fin 3 → ℝ) (hu : length u = 1) (θ : ℝ) (h0 : 0 < θ) (h1 : θ < 2 * Real.pi) :
    (rotationQuatAxisAngle l u θ).angle = θ ∧ (rotationQuatAxisAngle l u θ).axis = u := by
  have hs : 0 < Real.sin (θ / 2) := Real.sin_pos_of_pos_of_lt_pi (by linarith) (by linarith)
  constructor
  · rw [angle, len_rot hu, abs_of_pos hs, s_rot, atan2]
    have : (⟨Real.cos (θ / 2), Real.sin (θ / 2)⟩ : ℂ) = Complex.cos ((θ / 2 : ℝ) : ℂ) + Complex.sin ((θ / 2 : ℝ) : ℂ) * Complex.I := by
      rw [← Complex.ofReal_cos, ← Complex.ofReal_sin]
      apply Complex.ext <;> simp [-Complex.ofReal_cos, -Complex.ofReal_sin]
    rw [this, Complex.arg_cos_add_sin_mul_I ⟨by linarith [Real.pi_pos], by linarith⟩]
    ring
  · have hu0 : u ≠ 0 := by
      intro h
      rw [h, (length_eq_zero (0 : Fin 3 → ℝ)).2 rfl] at hu
      exact zero_ne_one hu
    rw [axis, np_ne (by rw [vec_rot]; exact smul_ne_zero hs.ne' hu0), len_rot hu, abs_of_pos hs, vec_rot]
    funext i
    simp only [divReal, Pi.smul_apply, smul_eq_mul]
    field_simp
    simp [mul_comm]

/-- The hypotheses are met by a skew axis and one radian. -/
example : length (![3 / 5, 0, 4 / 5] : Fin 3 → ℝ) = 1 ∧ (0 : ℝ) < 1 ∧ (1 : ℝ) < 2 * Real.pi := by
  refine ⟨?_, one_pos, by linarith [Real.two_le_pi]⟩
  rw [Quat.length_fin3, Real.sqrt_eq_one]
  simp; norm_num

/-- C50: every unit quaternion is the rotation by `Angle(q)`, which lies between 0 and a full turn, around the unit vector `Axis(q)`. -/
theorem C50_reconstruct (q : Quat ℝ l) (hq : q.qLength = 1) :
    rotationQuatAxisAngle l q.axis q.angle = q ∧ length q.axis = 1 ∧ 0 ≤ q.angle ∧ q.angle ≤ 2 * Real.pi := by
  have hlen : length q.axis = 1 := by
    by_cases hv : q.vec = 0
    · rw [axis, hv, np_zero, length_fin3, Real.sqrt_eq_one]; simp
    · have hl : length q.vec ≠ 0 := fun e => hv ((length_eq_zero _).1 e)
      rw [axis, np_ne hv, length_divReal _ _ (lt_of_le_of_ne (length_nonneg _) (Ne.symm hl)), div_self hl]
  have hax : ∀ t, q.axis t * length q.vec = q.vec t := by
    intro t
    by_cases hv : q.vec = 0
    · rw [hv, (length_eq_zero (0 : Fin 3 → ℝ)).2 rfl]; simp
    · have hl : length q.vec ≠ 0 := fun e => hv ((length_eq_zero _).1 e)
      rw [axis, np_ne hv]
      simp only [divReal]
      simp [hl]
  have hN : q.s ^ 2 + length q.vec ^ 2 = 1 := by
    have h1 : q.qLengthSquared = 1 := by rw [← (C45_length q q 1 1 one_pos le_rfl).2.2.2.2, hq]; norm_num
    rw [qLengthSquared_eq] at h1
    rw [length_fin3, Real.sq_sqrt (by positivity)]
    have : q.vec 0 = q.i ∧ q.vec 1 = q.j ∧ q.vec 2 = q.k := ⟨rfl, rfl, rfl⟩
    rw [this.1, this.2.1, this.2.2]
    linarith
  have habs : ‖(⟨q.s, length q.vec⟩ : ℂ)‖ = 1 := by
    rw [Complex.norm_def, Complex.normSq_mk, Real.sqrt_eq_one]
    nlinarith
  have hne : (⟨q.s, length q.vec⟩ : ℂ) ≠ 0 := fun h => by rw [h, norm_zero] at habs; exact zero_ne_one habs
  have hhalf : q.angle / 2 = Complex.arg ⟨q.s, length q.vec⟩ := by rw [angle, atan2]; ring
  have hcos : Real.cos (q.angle / 2) = q.s := by
    rw [hhalf, Complex.cos_arg hne, habs, div_one]
  have hsin : Real.sin (q.angle / 2) = length q.vec := by
    rw [hhalf, Complex.sin_arg, habs, div_one]
  refine ⟨?_, hlen, ?_, ?_⟩
  · rw [rotationQuatAxisAngle, hcos, hsin]
    apply toH_inj
    apply Quaternion.ext
    · simp
    · rw [imI_toH, imI_toH, i_ofParts, mul_comm, hax]; rfl
    · rw [imJ_toH, imJ_toH, j_ofParts, mul_comm, hax]; rfl
    · rw [imK_toH, imK_toH, k_ofParts, mul_comm, hax]; rfl
  · have : 0 ≤ Complex.arg ⟨q.s, length q.vec⟩ := Complex.arg_nonneg_iff.2 (length_nonneg _)
    linarith
  · have := Complex.arg_le_pi ⟨q.s, length q.vec⟩
    linarith

/-- C50: without rotation the angle is 0 and the axis is the fallback X; a negative angle is reported as the positive angle around the
opposite axis. -/
theorem C50_other_angles (u : Fin 3 → ℝ) (hu : length u = 1) :
    ((rotationQuatAxisAngle l u 0).angle = 0 ∧ (rotationQuatAxisAngle l u 0).axis = ![1, 0, 0]) ∧
    ∀ θ, 0 < θ → θ < 2 * Real.pi →
      (rotationQuatAxisAngle l u (-θ)).angle = θ ∧ (rotationQuatAxisAngle l u (-θ)).axis = -u := by
  refine ⟨⟨?_, ?_⟩, fun θ h0 h1 => ?_⟩
  · rw [angle, len_rot hu, s_rot, atan2, zero_div, Real.sin_zero, Real.cos_zero, abs_zero]
    have : (⟨1, 0⟩ : ℂ) = 1 := rfl
    rw [this, Complex.arg_one, mul_zero]
  · rw [axis, vec_rot, zero_div, Real.sin_zero, zero_smul, np_zero]
  · have e : rotationQuatAxisAngle l u (-θ) = rotationQuatAxisAngle l (-u) θ := by
      rw [rotationQuatAxisAngle, rotationQuatAxisAngle, neg_div, Real.cos_neg, Real.sin_neg]
      congr 1
      funext i
      simp
    rw [e]
    refine C50_axis_angle (-u) ?_ θ h0 h1
    rw [show -u = (-1 : ℝ) • u by simp, length_smul, hu]
    simp

end Mathter.Props
