import Mathlib.Analysis.Normed.Algebra.QuaternionExponential
import Verif.Props.Quaternion

/-!
# Property C49: exponential, logarithm and power of quaternions

`lo`, `hi` are the smallest and largest normal value of the scalar type (used by `LengthPrecise`); `none` is `log 0`.
-/

namespace Mathter.Props
open Mathter Quat
open scoped Quaternion
variable {l : QLayout}

private theorem normalizePrecise1_ne {v : Fin 3 → ℝ} (hv : v ≠ 0) : normalizePrecise1 v = divReal v (length v) :=
  normalizePrecise_ne_zero _ _ hv

private theorem normalizePrecise1_zero : normalizePrecise1 (0 : Fin 3 → ℝ) = fun i => if i = 0 then 1 else 0 := by
  rw [normalizePrecise1, normalizePrecise, if_pos ((scaleElements_eq_zero _).2 rfl)]

private theorem normalizePrecise1_unit (v : Fin 3 → ℝ) : length (normalizePrecise1 v) = 1 := by
  by_cases hv : v = 0
  · subst hv
    rw [normalizePrecise1_zero, length_fin3]
    simp
  · have hl : length v ≠ 0 := fun e => hv ((length_eq_zero v).1 e)
    rw [normalizePrecise1_ne hv, length_divReal _ _ (lt_of_le_of_ne (length_nonneg v) hl.symm), div_self hl]

private theorem normalizePrecise1_mul (v : Fin 3 → ℝ) (t : Fin 3) : normalizePrecise1 v t * length v = v t := by
  by_cases hv : v = 0
  · subst hv
    rw [(length_eq_zero (0 : Fin 3 → ℝ)).2 rfl]; simp
  · have hl : length v ≠ 0 := fun e => hv ((length_eq_zero v).1 e)
    rw [normalizePrecise1_ne hv]
    exact div_mul_cancel₀ _ hl

private theorem length_mul_const (n : Fin 3 → ℝ) (hn : length n = 1) (φ : ℝ) : length (fun t => n t * φ) = |φ| := by
  have : (fun t => n t * φ) = φ • n := by funext t; simp [mul_comm]
  rw [this, length_smul, hn, mul_one, Real.norm_eq_abs]

private theorem s_exp (lo hi : ℝ) (hlo : 0 < lo) (hh : lo ≤ hi) (q : Quat ℝ l) :
    (Quat.exp lo hi q).s = Real.exp q.s * Real.cos (length q.vec) ∧
    (Quat.exp lo hi q).vec = fun t => Real.exp q.s * (normalizePrecise1 q.vec t * Real.sin (length q.vec)) := by
  unfold Quat.exp
  simp only [C14_length_precise lo hi hlo hh]
  constructor
  · rw [s_eq, canonical_convert]; exact congrArg (_ * ·) (s_ofParts _ _)
  · rw [vec_eq, canonical_convert]
    funext t
    exact congrArg (_ * ·) (congrFun (vec_ofParts _ _) t)

private theorem ext_parts {p q : Quat ℝ l} (hs : p.s = q.s) (hv : p.vec = q.vec) : p = q := by
  apply ext_canonical
  funext t
  refine Fin.cases hs (fun t => ?_) t
  exact congrFun hv t

/-- Exponential along a unit axis. -/
private theorem exp_axis (lo hi : ℝ) (hlo : 0 < lo) (hh : lo ≤ hi) (a φ : ℝ) (n : Fin 3 → ℝ) (hn : length n = 1) :
    Quat.exp lo hi (ofParts l a fun t => n t * φ) = ofParts l (Real.exp a * Real.cos φ) fun t => Real.exp a * (n t * Real.sin φ) := by
  obtain ⟨h1, h2⟩ := s_exp lo hi hlo hh (ofParts l a fun t => n t * φ)
  rw [vec_ofParts, s_ofParts, length_mul_const n hn] at h1 h2
  apply ext_parts
  · rw [h1, s_ofParts, Real.cos_abs]
  · rw [h2, vec_ofParts]
    funext t
    by_cases hφ : φ = 0
    · subst hφ; simp
    · have hne : (fun t => n t * φ) ≠ 0 := by
        intro e
        have := length_mul_const n hn φ
        rw [e, (length_eq_zero (0 : Fin 3 → ℝ)).2 rfl] at this
        exact hφ (abs_eq_zero.1 this.symm)
      rw [normalizePrecise1_ne hne, length_mul_const n hn]
      simp only [divReal]
      congr 1
      have h0 : |φ| ≠ 0 := abs_ne_zero.2 hφ
      rcases abs_choice φ with h | h
      · rw [h]; exact congrArg (· * _) (mul_div_cancel_right₀ (n t) hφ)
      · rw [h, Real.sin_neg]
        have : n t * φ / ((-φ : ℝ) : ℝ) = -n t := by field_simp
        change n t * φ / (-φ) * -Real.sin φ = _
        rw [this]; ring

/-- C49: `Exp` is the exponential function of the quaternion algebra. -/
theorem C49_exp (lo hi : ℝ) (hlo : 0 < lo) (hh : lo ≤ hi) (q : Quat ℝ l) : (Quat.exp lo hi q).toH = NormedSpace.exp q.toH := by
  obtain ⟨h1, h2⟩ := s_exp lo hi hlo hh q
  have hnorm : ‖q.toH.im‖ = length q.vec := by
    rw [length_vec, ← Real.sqrt_mul_self (norm_nonneg _), ← Quaternion.normSq_eq_norm_mul_self, Quaternion.normSq_def']
    simp
  have hcomp : ∀ t, (Quat.exp lo hi q).vec t = Real.exp q.s * (Real.sin (length q.vec) / length q.vec * q.vec t) := by
    intro t
    rw [h2]
    simp only
    congr 1
    by_cases hv : q.vec = 0
    · rw [hv, (length_eq_zero (0 : Fin 3 → ℝ)).2 rfl]; simp
    · rw [normalizePrecise1_ne hv]
      simp only [divReal]
      change q.vec t / length q.vec * _ = _
      ring
  have hi' : ∀ p : Quat ℝ l, p.i = p.vec 0 ∧ p.j = p.vec 1 ∧ p.k = p.vec 2 := fun p => ⟨rfl, rfl, rfl⟩
  rw [Quaternion.exp_eq, hnorm]
  apply Quaternion.ext
  · simp [h1, ← Real.exp_eq_exp_ℝ]
  · simp [(hi' _).1, hcomp, ← Real.exp_eq_exp_ℝ]
  · simp [(hi' _).2.1, hcomp, ← Real.exp_eq_exp_ℝ]
  · simp [(hi' _).2.2, hcomp, ← Real.exp_eq_exp_ℝ]

/-- C49: the length of `Exp(q)` is the exponential of the scalar part. -/
theorem C49_exp_length (lo hi : ℝ) (hlo : 0 < lo) (hh : lo ≤ hi) (q : Quat ℝ l) : (Quat.exp lo hi q).qLength = Real.exp q.s := by
  rw [qLength_eq_norm, C49_exp lo hi hlo hh, Quaternion.norm_exp, ← Real.exp_eq_exp_ℝ]
  simp

private theorem quat_length_sq (q : Quat ℝ l) : q.s ^ 2 + length q.vec ^ 2 = q.qLengthSquared := by
  rw [length_vec, Real.sq_sqrt (by positivity), qLengthSquared_eq]; ring

/-- `Log` of a nonzero quaternion in polar form. -/
private theorem log_eq (lo hi : ℝ) (hlo : 0 < lo) (hh : lo ≤ hi) (q : Quat ℝ l) (h : q ≠ mk4 l 0 0 0 0) :
    0 < q.qLength ∧ Quat.log lo hi q = some (ofParts l (Real.log q.qLength) fun t => normalizePrecise1 q.vec t * Real.arccos (q.s / q.qLength)) ∧
    Real.cos (Real.arccos (q.s / q.qLength)) = q.s / q.qLength ∧ Real.sin (Real.arccos (q.s / q.qLength)) = length q.vec / q.qLength := by
  have hl : q.qLength ≠ 0 := fun e => h (((C45_length q q 1 1 one_pos le_rfl).2.2.1).1 e)
  have hlp : 0 < q.qLength := lt_of_le_of_ne (length_nonneg _) hl.symm
  have hsq : q.qLength ^ 2 = q.s ^ 2 + length q.vec ^ 2 := by rw [(C45_length q q 1 1 one_pos le_rfl).2.2.2.2, quat_length_sq]
  have hq : Real.sqrt (q.s ^ 2 + length q.vec ^ 2) = q.qLength := by rw [← hsq, Real.sqrt_sq hlp.le]
  have hb : |q.s / q.qLength| ≤ 1 := by
    rw [abs_div, abs_of_pos hlp, div_le_one hlp]
    apply abs_le_of_sq_le_sq _ hlp.le
    rw [hsq]; nlinarith [sq_nonneg (length q.vec)]
  rw [abs_le] at hb
  refine ⟨hlp, ?_, Real.cos_arccos hb.1 hb.2, ?_⟩
  · unfold Quat.log
    simp only [C14_length_precise lo hi hlo hh, hq, if_neg hl]
  · rw [Real.sin_arccos, ← Real.sqrt_sq (div_nonneg (length_nonneg q.vec) hlp.le)]
    congr 1
    rw [div_pow, div_pow, eq_div_iff (by positivity), sub_mul, div_mul_cancel₀ _ (by positivity), hsq]; ring

/-- C49: `Exp(Log(q)) = q` for every nonzero quaternion, negative reals included. -/
theorem C49_exp_log (lo hi : ℝ) (hlo : 0 < lo) (hh : lo ≤ hi) (q : Quat ℝ l) (h : q ≠ mk4 l 0 0 0 0) :
    ∃ g, Quat.log lo hi q = some g ∧ Quat.exp lo hi g = q := by
  obtain ⟨hp, hlog, hc, hs⟩ := log_eq lo hi hlo hh q h
  refine ⟨_, hlog, ?_⟩
  rw [exp_axis lo hi hlo hh _ _ _ (normalizePrecise1_unit _), hc, hs, Real.exp_log hp]
  apply ext_parts
  · rw [s_ofParts, mul_div_cancel₀ _ hp.ne']
  · rw [vec_ofParts]
    funext t
    rw [← mul_div_assoc, normalizePrecise1_mul, mul_div_cancel₀ _ hp.ne']

/-- C49: `Log(0)` has no value. -/
theorem C49_log_zero (lo hi : ℝ) (hlo : 0 < lo) (hh : lo ≤ hi) : Quat.log lo hi (mk4 l 0 0 0 0) = none := by
  unfold Quat.log
  simp only [C14_length_precise lo hi hlo hh]
  rw [if_pos]
  rw [quat_length_sq, qLengthSquared_eq]
  simp [s_eq, i_eq, j_eq, k_eq]

/-- C49: `Log(Exp(q)) = q` for quaternions whose vector part is shorter than `π`. -/
theorem C49_log_exp (lo hi : ℝ) (hlo : 0 < lo) (hh : lo ≤ hi) (q : Quat ℝ l) (h : length q.vec < Real.pi) :
    Quat.log lo hi (Quat.exp lo hi q) = some q := by
  obtain ⟨h1, h2⟩ := s_exp lo hi hlo hh q
  have hlen := C49_exp_length lo hi hlo hh q
  have hne : Quat.exp lo hi q ≠ mk4 l 0 0 0 0 := by
    intro e
    have := ((C45_length (Quat.exp lo hi q) (Quat.exp lo hi q) 1 1 one_pos le_rfl).2.2.1).2 e
    rw [hlen] at this
    exact (Real.exp_pos _).ne' this
  obtain ⟨hp, hlog, -, -⟩ := log_eq lo hi hlo hh _ hne
  rw [hlog, hlen, Real.log_exp, h1, mul_div_cancel_left₀ _ (Real.exp_pos _).ne', Real.arccos_cos (length_nonneg _) h.le]
  congr 1
  apply ext_parts
  · rw [s_ofParts]
  · rw [vec_ofParts]
    by_cases hv : q.vec = 0
    · rw [hv, (length_eq_zero (0 : Fin 3 → ℝ)).2 rfl]; funext t; simp
    · have hl : length q.vec ≠ 0 := fun e => hv ((length_eq_zero _).1 e)
      have hl0 : 0 < length q.vec := lt_of_le_of_ne (length_nonneg _) hl.symm
      have hs : 0 < Real.sin (length q.vec) := Real.sin_pos_of_pos_of_lt_pi hl0 h
      have hx : 0 < Real.exp q.s * Real.sin (length q.vec) := mul_pos (Real.exp_pos _) hs
      have hvec : (Quat.exp lo hi q).vec = fun t => normalizePrecise1 q.vec t * (Real.exp q.s * Real.sin (length q.vec)) := by
        rw [h2]; funext t; ring
      have hn : normalizePrecise1 (Quat.exp lo hi q).vec = normalizePrecise1 q.vec := by
        have hl2 := length_mul_const _ (normalizePrecise1_unit q.vec) (Real.exp q.s * Real.sin (length q.vec))
        rw [← hvec, abs_of_pos hx] at hl2
        rw [normalizePrecise1_ne (fun e => by rw [e, (length_eq_zero (0 : Fin 3 → ℝ)).2 rfl] at hl2; exact hx.ne hl2), hl2, hvec]
        funext t
        exact mul_div_cancel_right₀ _ hx.ne'
      rw [hn]
      funext t
      exact normalizePrecise1_mul q.vec t

/-- `Pow` in polar form. -/
private theorem pow_eq (lo hi : ℝ) (hlo : 0 < lo) (hh : lo ≤ hi) (q : Quat ℝ l) (h : q ≠ mk4 l 0 0 0 0) (a : ℝ) :
    Quat.pow lo hi q a = some (ofParts l (Real.exp (a * Real.log q.qLength) * Real.cos (a * Real.arccos (q.s / q.qLength)))
      fun t => Real.exp (a * Real.log q.qLength) * (normalizePrecise1 q.vec t * Real.sin (a * Real.arccos (q.s / q.qLength)))) := by
  obtain ⟨hp, hlog, hc, hs⟩ := log_eq lo hi hlo hh q h
  rw [Quat.pow, hlog, Option.map_some, ← exp_axis lo hi hlo hh _ _ _ (normalizePrecise1_unit _)]
  congr 2
  apply ext_parts
  · rw [s_ofParts]; exact congrArg (a * ·) (s_ofParts _ _)
  · rw [vec_ofParts]
    funext t
    have : (scalarMul a (ofParts l (Real.log q.qLength) fun t => normalizePrecise1 q.vec t * Real.arccos (q.s / q.qLength))).vec t =
        a * (normalizePrecise1 q.vec t * Real.arccos (q.s / q.qLength)) := congrArg (a * ·) (congrFun (vec_ofParts _ _) t)
    rw [this]; ring

/-- C49: powers of a nonzero quaternion add up, the first power is the quaternion, the zeroth is one, and lengths are raised to the power. -/
theorem C49_pow (lo hi : ℝ) (hlo : 0 < lo) (hh : lo ≤ hi) (q : Quat ℝ l) (h : q ≠ mk4 l 0 0 0 0) :
    Quat.pow lo hi q 1 = some q ∧ Quat.pow lo hi q 0 = some (mk4 l 1 0 0 0) ∧
    (∀ a b, ∃ x y, Quat.pow lo hi q a = some x ∧ Quat.pow lo hi q b = some y ∧ Quat.pow lo hi q (a + b) = some (mul x y)) ∧
    (∀ a, ∃ x, Quat.pow lo hi q a = some x ∧ x.qLength = q.qLength ^ a) := by
  refine ⟨?_, ?_, ?_, ?_⟩
  · obtain ⟨g, hg, he⟩ := C49_exp_log lo hi hlo hh q h
    rw [Quat.pow, hg, Option.map_some]
    have : scalarMul 1 g = g := by apply Quat.ext; funext t; exact one_mul _
    rw [this, he]
  · rw [pow_eq lo hi hlo hh q h]
    congr 1
    apply ext_parts
    · rw [s_ofParts]; simp [s_eq]
    · rw [vec_ofParts, vec_eq' (mk4 l (1 : ℝ) 0 0 0)]
      funext t
      fin_cases t <;> simp [i_eq, j_eq, k_eq]
  · intro a b
    refine ⟨_, _, pow_eq lo hi hlo hh q h a, pow_eq lo hi hlo hh q h b, ?_⟩
    rw [pow_eq lo hi hlo hh q h (a + b)]
    congr 1
    have hn := normalizePrecise1_unit q.vec
    rw [length_fin3, Real.sqrt_eq_one] at hn
    rw [add_mul, add_mul, Real.exp_add, Real.cos_add, Real.sin_add]
    generalize Real.exp (a * Real.log q.qLength) = A
    generalize Real.exp (b * Real.log q.qLength) = B
    generalize a * Real.arccos (q.s / q.qLength) = α
    generalize b * Real.arccos (q.s / q.qLength) = β
    generalize normalizePrecise1 q.vec = n at *
    apply toH_inj
    rw [toH_mul]
    apply Quaternion.ext
    · simp
      linear_combination (A * B * Real.sin α * Real.sin β) * hn
    · simp
      ring
    · simp
      ring
    · simp
      ring
  · intro a
    obtain ⟨hp, hlog, -, -⟩ := log_eq lo hi hlo hh q h
    refine ⟨_, by rw [Quat.pow, hlog, Option.map_some], ?_⟩
    rw [C49_exp_length lo hi hlo hh, Real.rpow_def_of_pos hp, mul_comm]
    congr 1
    exact congrArg (a * ·) (s_ofParts _ _)

example : mk4 .scalarFirst (-2 : ℝ) 0 0 0 ≠ mk4 .scalarFirst 0 0 0 0 := by
  intro h
  have := congrArg Quat.s h
  simp [s_eq] at this

end Mathter.Props
