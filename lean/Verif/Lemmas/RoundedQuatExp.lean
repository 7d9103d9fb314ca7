import Verif.Lemmas.RoundedLook
import Verif.Lemmas.Quaternion
import Verif.Model.RoundedQuatExp
import Mathlib.Analysis.SpecialFunctions.Trigonometric.Bounds

/-! # Lemmas about the rounded quaternion functions -/

namespace Mathter.Fl
open Mathter

/-- The argument of a complex number changes by little when the positive imaginary part does. -/
theorem arg_diff {x y y' g : ℝ} (hy : 0 < y) (hy' : 0 < y') (hd : |y' - y| ≤ g * y) :
    |Complex.arg ⟨x, y'⟩ - Complex.arg ⟨x, y⟩| ≤ Real.pi / 2 * g * Complex.arg ⟨x, y⟩ := by
  have hz : (⟨x, y⟩ : ℂ) ≠ 0 := fun e => hy.ne' (congrArg Complex.im e)
  have hz' : (⟨x, y'⟩ : ℂ) ≠ 0 := fun e => hy'.ne' (congrArg Complex.im e)
  have n0 : 0 < ‖(⟨x, y⟩ : ℂ)‖ := norm_pos_iff.2 hz
  have n1 : 0 < ‖(⟨x, y'⟩ : ℂ)‖ := norm_pos_iff.2 hz'
  have c0 := Complex.cos_arg hz
  have c1 := Complex.cos_arg hz'
  have s0 := Complex.sin_arg (⟨x, y⟩ : ℂ)
  have s1 := Complex.sin_arg (⟨x, y'⟩ : ℂ)
  have p0 : 0 ≤ Complex.arg ⟨x, y⟩ := Complex.arg_nonneg_iff.2 hy.le
  have p1 : 0 ≤ Complex.arg ⟨x, y'⟩ := Complex.arg_nonneg_iff.2 hy'.le
  have q0 := Complex.arg_le_pi (⟨x, y⟩ : ℂ)
  have q1 := Complex.arg_le_pi (⟨x, y'⟩ : ℂ)
  have hx : |x| ≤ ‖(⟨x, y'⟩ : ℂ)‖ := Complex.abs_re_le_norm (⟨x, y'⟩ : ℂ)
  have hpi := Real.pi_pos
  generalize ‖(⟨x, y⟩ : ℂ)‖ = r0 at *
  generalize ‖(⟨x, y'⟩ : ℂ)‖ = r1 at *
  generalize Complex.arg ⟨x, y⟩ = a at *
  generalize Complex.arg ⟨x, y'⟩ = b at *
  simp only at c0 c1 s0 s1
  have hs : Real.sin (b - a) = x * (y' - y) / (r0 * r1) := by
    rw [Real.sin_sub, c0, c1, s0, s1]; field_simp
  have hc : 0 < Real.cos (b - a) := by
    rw [Real.cos_sub, c0, c1, s0, s1]
    have : 0 ≤ x / r1 * (x / r0) := by
      rw [div_mul_div_comm]; exact div_nonneg (mul_self_nonneg x) (by positivity)
    have : 0 < y' / r1 * (y / r0) := by positivity
    linarith
  have hab : |b - a| ≤ Real.pi / 2 := by
    by_contra hcon
    push Not at hcon
    have : Real.cos |b - a| ≤ 0 := Real.cos_nonpos_of_pi_div_two_le_of_le hcon.le (by rw [abs_le]; constructor <;> linarith)
    rw [Real.cos_abs] at this
    linarith
  have k := Real.mul_abs_le_abs_sin hab
  have k2 : |b - a| ≤ Real.pi / 2 * |Real.sin (b - a)| := by
    rw [div_mul_eq_mul_div, div_le_iff₀ hpi] at k
    linarith
  have k3 : |Real.sin (b - a)| ≤ g * Real.sin a := by
    rw [hs, abs_div, abs_mul, abs_of_pos (mul_pos n0 n1), s0, div_le_iff₀ (mul_pos n0 n1)]
    have : g * (y / r0) * (r0 * r1) = r1 * (g * y) := by field_simp
    rw [this]
    exact mul_le_mul hx hd (abs_nonneg _) n1.le
  have k4 : Real.sin a ≤ a := Real.sin_le p0
  have hg : 0 ≤ g := by
    have := (abs_nonneg _).trans hd
    exact nonneg_of_mul_nonneg_left this hy
  calc |b - a| ≤ Real.pi / 2 * |Real.sin (b - a)| := k2
    _ ≤ Real.pi / 2 * (g * a) := by gcongr; exact k3.trans (mul_le_mul_of_nonneg_left k4 hg)
    _ = _ := by ring

/-- The difference of two angles between 0 and `π`, in terms of the difference of their cosines. -/
theorem angle_diff {a b : ℝ} (ha : 0 ≤ a) (ha' : a ≤ Real.pi) (hb : 0 ≤ b) (hb' : b ≤ Real.pi) :
    |b - a| * Real.sin a ≤ Real.pi * |Real.cos b - Real.cos a| ∧ |b - a| ^ 2 ≤ Real.pi ^ 2 / 2 * |Real.cos b - Real.cos a| := by
  have hpi := Real.pi_pos
  have hd : |(b - a) / 2| ≤ Real.pi / 2 := by rw [abs_le]; constructor <;> linarith
  have k := Real.mul_abs_le_abs_sin hd
  have e : |Real.cos b - Real.cos a| = 2 * Real.sin ((b + a) / 2) * |Real.sin ((b - a) / 2)| := by
    rw [Real.cos_sub_cos, abs_mul, abs_mul, abs_neg, abs_two, abs_of_nonneg]
    exact Real.sin_nonneg_of_nonneg_of_le_pi (by linarith) (by linarith)
  have k1 : |b - a| ≤ Real.pi * |Real.sin ((b - a) / 2)| := by
    rw [abs_div, abs_two, div_mul_eq_mul_div, div_le_iff₀ hpi] at k
    linarith
  have hS := abs_nonneg (Real.sin ((b - a) / 2))
  have ge : ∀ t, 0 ≤ t → t ≤ (b + a) / 2 → t ≤ Real.pi - (b + a) / 2 → Real.sin t ≤ Real.sin ((b + a) / 2) := by
    intro t h0 h1 h2
    rcases le_total ((b + a) / 2) (Real.pi / 2) with h | h
    · exact Real.sin_le_sin_of_le_of_le_pi_div_two (by linarith) h h1
    · rw [← Real.sin_pi_sub ((b + a) / 2)]
      exact Real.sin_le_sin_of_le_of_le_pi_div_two (by linarith) (by linarith) h2
  constructor
  · have m : Real.sin a ≤ 2 * Real.sin ((b + a) / 2) := by
      have h2 : Real.sin a = 2 * Real.sin (a / 2) * Real.cos (a / 2) := by rw [← Real.sin_two_mul]; congr 1; ring
      have s0 := Real.sin_nonneg_of_nonneg_of_le_pi (show 0 ≤ a / 2 by linarith) (by linarith)
      have c0 := Real.cos_nonneg_of_neg_pi_div_two_le_of_le (show -(Real.pi / 2) ≤ a / 2 by linarith) (by linarith)
      rcases le_total a (Real.pi / 2) with h | h
      · have := ge (a / 2) (by linarith) (by linarith) (by linarith)
        have := mul_le_mul_of_nonneg_left (Real.cos_le_one (a / 2)) s0
        linarith
      · have := ge ((Real.pi - a) / 2) (by linarith) (by linarith) (by linarith)
        rw [sub_div, Real.sin_pi_div_two_sub] at this
        have := mul_le_mul_of_nonneg_right (Real.sin_le_one (a / 2)) c0
        linarith
    rw [e]
    have sa := Real.sin_nonneg_of_nonneg_of_le_pi ha ha'
    calc |b - a| * Real.sin a ≤ (Real.pi * |Real.sin ((b - a) / 2)|) * (2 * Real.sin ((b + a) / 2)) := mul_le_mul k1 m sa (by positivity)
      _ = _ := by ring
  · have m : |Real.sin ((b - a) / 2)| ≤ Real.sin ((b + a) / 2) := by
      rw [Real.abs_sin_eq_sin_abs_of_abs_le_pi (by linarith)]
      refine ge _ (abs_nonneg _) ?_ ?_ <;> rw [abs_div, abs_two] <;> rcases abs_cases (b - a) with ⟨h, -⟩ | ⟨h, -⟩ <;> linarith
    rw [e]
    calc |b - a| ^ 2 ≤ (Real.pi * |Real.sin ((b - a) / 2)|) ^ 2 := by gcongr
      _ = Real.pi ^ 2 * (|Real.sin ((b - a) / 2)| * |Real.sin ((b - a) / 2)|) := by ring
      _ ≤ Real.pi ^ 2 * (Real.sin ((b + a) / 2) * |Real.sin ((b - a) / 2)|) := by gcongr
      _ = _ := by ring

variable {l : QLayout} {fl : ℝ → ℝ} {u e g : ℝ} {p : ℕ} {L : CMath}

/-- The parts of `Exp(q)`. -/
theorem qexp_parts (fl : ℝ → ℝ) (L : CMath) (len : (Fin 3 → ℝ) → ℝ) (norm : (Fin 3 → ℝ) → Fin 3 → ℝ) (q : Quat ℝ l) :
    (qexp fl L len norm q).s = fl (L.exp q.s * L.cos (len q.vec)) ∧
    (qexp fl L len norm q).vec = fun t => fl (L.exp q.s * fl (norm q.vec t * L.sin (len q.vec))) := by
  unfold qexp
  constructor
  · rw [Quat.s_eq, Quat.canonical_convert]
    exact congrArg (fun x => fl (_ * x)) (Quat.s_ofParts _ _)
  · rw [Quat.vec_eq, Quat.canonical_convert]
    funext t
    exact congrArg (fun x => fl (_ * x)) (congrFun (Quat.vec_ofParts _ _) t)

/-- The scalar part of `Exp`. -/
theorem exp_scalar (h : Rounding fl u) (hL : L.Accurate p e) {ℓ ℓ' s : ℝ} (hu : u ≤ 1 / 1000) (he0 : 0 ≤ e) (he : e ≤ 1 / 1000) (hℓ : 0 ≤ ℓ) (hg : 0 ≤ g)
    (hd : |ℓ' - ℓ| ≤ g * ℓ) : |fl (L.exp s * L.cos ℓ') - Real.exp s * Real.cos ℓ| ≤ 1.01 * (g * ℓ + 2 * e + u) * Real.exp s := by
  have hu0 := h.u_nonneg
  have r := h.err (L.exp s * L.cos ℓ')
  have a := hL.exp s
  have b := hL.cos ℓ'
  have hE := Real.exp_pos s
  have c : |Real.cos ℓ' - Real.cos ℓ| ≤ g * ℓ := (Real.abs_cos_sub_cos_le _ _).trans hd
  have b1 := Real.abs_cos_le_one ℓ'
  have b2 := Real.abs_cos_le_one ℓ
  have hgl : 0 ≤ g * ℓ := mul_nonneg hg hℓ
  generalize Real.exp s = E at *
  generalize L.exp s = E' at *
  generalize L.cos ℓ' = C' at *
  generalize Real.cos ℓ' = C1 at *
  generalize Real.cos ℓ = C at *
  generalize g * ℓ = d at *
  have k1 : |C' - C| ≤ e + d := by
    have := abs_sub_le C' C1 C
    have : e * |C1| ≤ e * 1 := mul_le_mul_of_nonneg_left b1 he0
    linarith
  have hE' : |E'| ≤ (1 + e) * E := by
    have := abs_sub_abs_le_abs_sub E' E
    rw [abs_of_pos hE] at this; linarith
  have k2 : |E' * C' - E * C| ≤ (1 + e) * E * (e + d) + e * E := by
    rw [show E' * C' - E * C = E' * (C' - C) + (E' - E) * C by ring]
    refine (abs_add_le _ _).trans ?_
    rw [abs_mul, abs_mul]
    exact add_le_add (mul_le_mul hE' k1 (abs_nonneg _) (by positivity)) ((mul_le_mul a b2 (abs_nonneg _) (by positivity)).trans (by rw [mul_one]))
  have k3 : |E' * C'| ≤ E + ((1 + e) * E * (e + d) + e * E) := by
    have := abs_sub_abs_le_abs_sub (E' * C') (E * C)
    have : |E * C| ≤ E * 1 := by rw [abs_mul, abs_of_pos hE]; exact mul_le_mul_of_nonneg_left b2 hE.le
    linarith
  have k4 := abs_sub_le (fl (E' * C')) (E' * C') (E * C)
  have k5 : u * |E' * C'| ≤ u * (E + ((1 + e) * E * (e + d) + e * E)) := mul_le_mul_of_nonneg_left k3 hu0
  have k6 : |fl (E' * C') - E * C| ≤ (u * (1 + (1 + e) * (e + d) + e) + (1 + e) * (e + d) + e) * E := by linarith
  refine k6.trans (mul_le_mul_of_nonneg_right ?_ hE.le)
  have m1 : e * (e + d) ≤ 1 / 1000 * (e + d) := mul_le_mul_of_nonneg_right he (by linarith)
  have m2 : u * ((1 + e) * (e + d) + e) ≤ 1 / 1000 * ((1 + e) * (e + d) + e) := mul_le_mul_of_nonneg_right hu (by positivity)
  linarith

/-- A normalised vector multiplied with a number that has a relative error. -/
theorem dir_mul (h : Rounding fl u) {n : ℕ} {a b : Fin n → ℝ} {S S' B δ γ : ℝ} (hu : u ≤ 1 / 1000) (hγ0 : 0 ≤ γ) (hγ : γ ≤ 1 / 100) (hb : norm2 b = 1)
    (hab : norm2 (fun i => a i - b i) ≤ γ) (hS : |S' - S| ≤ δ) (hB : |S| ≤ B) :
    norm2 (fun i => fl (a i * S') - b i * S) ≤ 1.02 * δ + (1.02 * u + γ) * B := by
  have hu0 := h.u_nonneg
  have hδ : 0 ≤ δ := (abs_nonneg _).trans hS
  have hB0 : 0 ≤ B := (abs_nonneg _).trans hB
  have na : norm2 a ≤ 1 + γ := by
    have := (abs_le.1 (norm2_sub_le a b)).2
    linarith
  have nS : |S'| ≤ B + δ := by
    have := abs_sub_abs_le_abs_sub S' S
    linarith
  have e : (fun i => fl (a i * S') - b i * S) = fun i => (fl (a i * S') - a i * S') + ((S' - S) * a i + S * (a i - b i)) := by
    funext i; ring
  rw [e]
  refine (norm2_add_le _ _).trans ?_
  have k1 : norm2 (fun i => fl (a i * S') - a i * S') ≤ u * norm2 fun i => S' * a i :=
    norm2_le_mul hu0 fun i => by rw [mul_comm S']; exact h.err _
  have k2 := norm2_add_le (fun i => (S' - S) * a i) (fun i => S * (a i - b i))
  rw [norm2_smul] at k1
  rw [norm2_smul, norm2_smul] at k2
  have n0 := norm2_nonneg a
  have m1 : |S'| * norm2 a ≤ (B + δ) * (1 + γ) := mul_le_mul nS na n0 (by linarith)
  have m2 : |S' - S| * norm2 a ≤ δ * (1 + γ) := mul_le_mul hS na n0 hδ
  have m3 : |S| * norm2 (fun i => a i - b i) ≤ B * γ := mul_le_mul hB hab (norm2_nonneg _) hB0
  have m4 : u * (|S'| * norm2 a) ≤ u * ((B + δ) * (1 + γ)) := mul_le_mul_of_nonneg_left m1 hu0
  have m5 : u * (B * γ) ≤ u * (B * (1 / 100)) := by gcongr
  have m6 : u * (δ * (1 + γ)) ≤ 1 / 1000 * (δ * (1 + 1 / 100)) := by gcongr
  have m7 : δ * γ ≤ δ * (1 / 100) := by gcongr
  have m8 : 0 ≤ u * B := by positivity
  linarith

/-- The vector part of `Exp`. -/
theorem exp_vector (h : Rounding fl u) (hL : L.Accurate p e) {a b : Fin 3 → ℝ} {ℓ ℓ' s γ : ℝ} (hu : u ≤ 1 / 1000) (he0 : 0 ≤ e) (he : e ≤ 1 / 1000)
    (hℓ : 0 ≤ ℓ) (hg : 0 ≤ g) (hg1 : g ≤ 1 / 1000) (hγ0 : 0 ≤ γ) (hγ : γ ≤ 1 / 100) (hd : |ℓ' - ℓ| ≤ g * ℓ) (hb : norm2 b = 1)
    (hab : norm2 (fun i => a i - b i) ≤ γ) :
    norm2 (fun i => fl (L.exp s * fl (a i * L.sin ℓ')) - Real.exp s * (b i * Real.sin ℓ)) ≤ 1.1 * (g + 2 * e + γ + 2 * u) * (ℓ * Real.exp s) := by
  have hu0 := h.u_nonneg
  have hE := Real.exp_pos s
  have hx := hL.exp s
  have hS : |L.sin ℓ' - Real.sin ℓ| ≤ (1.001 * e + g) * ℓ := by
    have k1 := hL.sin ℓ'
    have k2 : |Real.sin ℓ' - Real.sin ℓ| ≤ g * ℓ := (Real.abs_sin_sub_sin_le _ _).trans hd
    have k3 : |Real.sin ℓ'| ≤ 1.001 * ℓ := by
      have := (abs_sub_abs_le_abs_sub ℓ' ℓ).trans hd
      rw [abs_of_nonneg hℓ] at this
      have k4 : g * ℓ ≤ 1 / 1000 * ℓ := by gcongr
      have := Real.abs_sin_le_abs (x := ℓ')
      linarith
    have := abs_sub_le (L.sin ℓ') (Real.sin ℓ') (Real.sin ℓ)
    have : e * |Real.sin ℓ'| ≤ e * (1.001 * ℓ) := by gcongr
    linarith
  have hB : |Real.sin ℓ| ≤ ℓ := (Real.abs_sin_le_abs (x := ℓ)).trans (abs_of_nonneg hℓ).le
  have k := dir_mul h hu hγ0 hγ hb hab hS hB
  generalize Real.exp s = E at *
  generalize L.exp s = E' at *
  generalize L.sin ℓ' = S' at *
  generalize Real.sin ℓ = S at *
  set W : Fin 3 → ℝ := fun i => fl (a i * S') with hW
  have hw : ∀ i, W i = fl (a i * S') := fun _ => rfl
  clear_value W
  simp only [← hw] at k ⊢
  clear hw hW
  set κ := (1.02 * (1.001 * e + g) + (1.02 * u + γ)) with hκ
  have k' : norm2 (fun i => W i - b i * S) ≤ κ * ℓ := by rw [hκ]; linarith
  have hκ0 : 0 ≤ κ := by positivity
  have hκ1 : κ ≤ 1 / 50 := by rw [hκ]; linarith
  have hκe : κ ≤ 1.02 * (1.001 * e + g) + (1.02 * u + γ) := hκ.le
  clear_value κ
  have nb : norm2 (fun i => b i * S) ≤ ℓ := by
    rw [show (fun i => b i * S) = fun i => S * b i from funext fun i => mul_comm _ _, norm2_smul, hb, mul_one]; exact hB
  have nW : norm2 W ≤ 1.02 * ℓ := by
    have := (abs_le.1 (norm2_sub_le W fun i => b i * S)).2
    have : κ * ℓ ≤ 1 / 50 * ℓ := by gcongr
    linarith
  have hE' : |E'| ≤ (1 + e) * E := by
    have := abs_sub_abs_le_abs_sub E' E
    rw [abs_of_pos hE] at this; linarith
  have ee : (fun i => fl (E' * W i) - E * (b i * S)) = fun i => (fl (E' * W i) - E' * W i) + ((E' - E) * W i + E * (W i - b i * S)) := by
    funext i; ring
  rw [ee]
  refine (norm2_add_le _ _).trans ?_
  have k1 : norm2 (fun i => fl (E' * W i) - E' * W i) ≤ u * norm2 fun i => E' * W i := norm2_le_mul hu0 fun i => h.err _
  have k2 := norm2_add_le (fun i => (E' - E) * W i) (fun i => E * (W i - b i * S))
  rw [norm2_smul] at k1
  rw [norm2_smul, norm2_smul, abs_of_pos hE] at k2
  have n0 := norm2_nonneg W
  have m1 : |E'| * norm2 W ≤ (1 + e) * E * (1.02 * ℓ) := mul_le_mul hE' nW n0 (by positivity)
  have m2 : |E' - E| * norm2 W ≤ e * E * (1.02 * ℓ) := mul_le_mul hx nW n0 (by positivity)
  have m3 : E * norm2 (fun i => W i - b i * S) ≤ E * (κ * ℓ) := mul_le_mul_of_nonneg_left k' hE.le
  have m4 : u * (|E'| * norm2 W) ≤ u * ((1 + e) * E * (1.02 * ℓ)) := mul_le_mul_of_nonneg_left m1 hu0
  have m5 : u * ((1 + e) * E * (1.02 * ℓ)) ≤ u * ((1 + 1 / 1000) * E * (1.02 * ℓ)) := by gcongr
  have tot : u * ((1 + 1 / 1000) * 1.02) + e * 1.02 + κ ≤ 1.1 * (g + 2 * e + γ + 2 * u) := by linarith
  have := mul_le_mul_of_nonneg_right tot (mul_nonneg hℓ hE.le)
  linarith

/-- `std::hypot` of the scalar part and the computed length of the vector part. -/
theorem hypot_err (hL : L.Accurate p e) {ℓ ℓ' s : ℝ} (he0 : 0 ≤ e) (hℓ : 0 ≤ ℓ) (hg : 0 ≤ g) (hg1 : g ≤ 1 / 1000) (hd : |ℓ' - ℓ| ≤ g * ℓ) :
    |L.hypot s ℓ' - Real.sqrt (s ^ 2 + ℓ ^ 2)| ≤ (1.001 * e + g) * Real.sqrt (s ^ 2 + ℓ ^ 2) := by
  have k := hL.hypot s ℓ'
  have r0 := Real.sqrt_nonneg (s ^ 2 + ℓ ^ 2)
  have r2 := Real.sq_sqrt (show 0 ≤ s ^ 2 + ℓ ^ 2 by positivity)
  obtain ⟨d1, d2⟩ := abs_le.1 hd
  have hs := sq_nonneg s
  have a1 : Real.sqrt (s ^ 2 + ℓ' ^ 2) ≤ (1 + g) * Real.sqrt (s ^ 2 + ℓ ^ 2) := by
    rw [Real.sqrt_le_left (by positivity), mul_pow, r2, mul_add]
    have : ℓ' ^ 2 ≤ ((1 + g) * ℓ) ^ 2 := by
      rw [sq_le_sq, abs_of_nonneg (show 0 ≤ (1 + g) * ℓ by positivity)]
      rw [abs_le]; constructor
      · have : g * ℓ ≤ 1 / 1000 * ℓ := by gcongr
        linarith
      · linarith
    rw [mul_pow] at this
    have : 1 * s ^ 2 ≤ (1 + g) ^ 2 * s ^ 2 := by gcongr; nlinarith
    linarith
  have a2 : (1 - g) * Real.sqrt (s ^ 2 + ℓ ^ 2) ≤ Real.sqrt (s ^ 2 + ℓ' ^ 2) := by
    apply Real.le_sqrt_of_sq_le
    rw [mul_pow, r2, mul_add]
    have : ((1 - g) * ℓ) ^ 2 ≤ ℓ' ^ 2 := by
      apply pow_le_pow_left₀ _ (by linarith)
      exact mul_nonneg (by linarith) hℓ
    rw [mul_pow] at this
    have : (1 - g) ^ 2 * s ^ 2 ≤ 1 * s ^ 2 := by gcongr; nlinarith
    linarith
  have a3 : |Real.sqrt (s ^ 2 + ℓ' ^ 2) - Real.sqrt (s ^ 2 + ℓ ^ 2)| ≤ g * Real.sqrt (s ^ 2 + ℓ ^ 2) := by
    rw [abs_le]; constructor <;> linarith
  generalize Real.sqrt (s ^ 2 + ℓ' ^ 2) = R' at *
  generalize Real.sqrt (s ^ 2 + ℓ ^ 2) = R at *
  have := abs_sub_le (L.hypot s ℓ') R' R
  have b1 : e * R' ≤ e * ((1 + g) * R) := by gcongr
  have b2 : e * ((1 + g) * R) ≤ e * ((1 + 1 / 1000) * R) := by gcongr
  linarith

/-- `log` of a positive number with a relative error. -/
theorem log_err (hL : L.Accurate p e) {r r' κ : ℝ} (he0 : 0 ≤ e) (he : e ≤ 1 / 1000) (hr : 0 < r) (hκ : κ ≤ 1 / 100) (hd : |r' - r| ≤ κ * r) :
    |L.log r' - Real.log r| ≤ e * |Real.log r| + 1.02 * κ := by
  obtain ⟨d1, d2⟩ := abs_le.1 hd
  have hκ0 : 0 ≤ κ := nonneg_of_mul_nonneg_left ((abs_nonneg _).trans hd) hr
  have hr' : 0.99 * r ≤ r' := by nlinarith
  have pr' : 0 < r' := by linarith
  have k := hL.log r' pr'
  have a : |Real.log r' - Real.log r| ≤ 1.0102 * κ := by
    rw [← Real.log_div pr'.ne' hr.ne', abs_le]
    constructor
    · have := Real.log_le_sub_one_of_pos (div_pos hr pr')
      have e1 : Real.log (r / r') = -Real.log (r' / r) := by rw [← Real.log_inv, inv_div]
      have e2 : r / r' - 1 ≤ 1.0102 * κ := by
        rw [div_sub_one pr'.ne', div_le_iff₀ pr']
        nlinarith
      linarith
    · have := Real.log_le_sub_one_of_pos (div_pos pr' hr)
      have e2 : r' / r - 1 ≤ κ := by
        rw [div_sub_one hr.ne', div_le_iff₀ hr]; linarith
      linarith
  have b := abs_sub_abs_le_abs_sub (Real.log r') (Real.log r)
  have t := abs_sub_le (L.log r') (Real.log r') (Real.log r)
  have c : e * |Real.log r'| ≤ e * (|Real.log r| + 1.0102 * κ) := by gcongr; linarith
  have d : e * (1.0102 * κ) ≤ 1 / 1000 * (1.0102 * κ) := by gcongr
  linarith

/-- The argument of `acos`. -/
theorem ratio_err (h : Rounding fl u) (hu : u ≤ 1 / 1000) {s r r' κ : ℝ} (hr : 0 < r) (hs : |s| ≤ r) (hκ : κ ≤ 1 / 100) (hd : |r' - r| ≤ κ * r) :
    |fl (s / r') - s / r| ≤ 1.02 * (κ + u) := by
  have hu0 := h.u_nonneg
  obtain ⟨d1, d2⟩ := abs_le.1 hd
  have hκ0 : 0 ≤ κ := nonneg_of_mul_nonneg_left ((abs_nonneg _).trans hd) hr
  have hr' : 0.99 * r ≤ r' := by nlinarith
  have pr' : 0 < r' := by linarith
  have a : |s / r' - s / r| ≤ 1.0102 * κ := by
    rw [show s / r' - s / r = s / r * ((r - r') / r') by field_simp, abs_mul, abs_div, abs_div, abs_of_pos hr, abs_of_pos pr', abs_sub_comm]
    have h1 : |s| / r ≤ 1 := by rw [div_le_one hr]; exact hs
    have h2 : |r' - r| / r' ≤ 1.0102 * κ := by
      rw [div_le_iff₀ pr']; nlinarith
    calc |s| / r * (|r' - r| / r') ≤ 1 * (1.0102 * κ) := mul_le_mul h1 h2 (by positivity) zero_le_one
      _ = _ := one_mul _
  have b : |s / r'| ≤ 1.0102 := by
    rw [abs_div, abs_of_pos pr', div_le_iff₀ pr']; linarith
  have c := h.err (s / r')
  have d : u * |s / r'| ≤ u * 1.0102 := by gcongr
  have t := abs_sub_le (fl (s / r')) (s / r') (s / r)
  linarith

end Mathter.Fl
