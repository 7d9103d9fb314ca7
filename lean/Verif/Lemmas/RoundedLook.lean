import Verif.Lemmas.RoundedGram
import Verif.Model.RoundedLook

/-! # Lemmas about the rounded look-at transforms -/

namespace Mathter.Fl
open Mathter
variable {n : ℕ} {fl : ℝ → ℝ} {u : ℝ}

/-- Two normalised vectors differ by at most twice the relative difference of the vectors. -/
theorem norm2_dir_le {a b : Fin n → ℝ} (ha : a ≠ 0) (hb : b ≠ 0) {d : ℝ} (h : norm2 (fun i => a i - b i) ≤ d * norm2 b) :
    norm2 (fun i => a i / norm2 a - b i / norm2 b) ≤ 2 * d := by
  have pa := norm2_pos ha
  have pb := norm2_pos hb
  have e : (fun i => a i / norm2 a - b i / norm2 b) = fun i => (norm2 b)⁻¹ * (a i - b i) + ((norm2 b - norm2 a) / norm2 b / norm2 a) * a i := by
    funext i; field_simp; ring
  rw [e]
  refine (norm2_add_le _ _).trans ?_
  rw [norm2_smul, norm2_smul, abs_of_pos (inv_pos.2 pb), abs_div, abs_div, abs_of_pos pa, abs_of_pos pb]
  have t := norm2_sub_le a b
  rw [abs_sub_comm] at t
  have k1 : (norm2 b)⁻¹ * norm2 (fun i => a i - b i) ≤ d := by
    rw [inv_mul_le_iff₀ pb]; linarith
  have k2 : |norm2 b - norm2 a| / norm2 b / norm2 a * norm2 a ≤ d := by
    rw [div_mul_cancel₀ _ pa.ne', div_le_iff₀ pb]
    exact t.trans h
  linarith

/-- The direction of the result of `NormalizePrecise`. -/
theorem normalize_err (h : Rounding fl u) {norm : (Fin n → ℝ) → Fin n → ℝ} {k : ℕ} (hn : IsNormalize u k norm) (hk : k ≤ n + 2) (hn1 : 1 ≤ n)
    (hg : (1 + u) ^ (n + 2) - 1 ≤ 1 / 1000) {v : Fin n → ℝ} (hv : v ≠ 0) :
    norm2 (fun i => norm v i - v i / norm2 v) ≤ 2 * ((1 + u) ^ (n + 2) - 1) := by
  have hu := h.u_nonneg
  obtain ⟨L, hL, hLe, hq⟩ := hn v hv
  change |L - norm2 v| ≤ ((1 + u) ^ k - 1) * norm2 v at hLe
  have pv := norm2_pos hv
  have gk : (1 + u) ^ k - 1 ≤ (1 + u) ^ (n + 2) - 1 := sub_le_sub_right (pow_le_pow_right₀ (by linarith) hk) 1
  have gu : (1 + u) ^ 2 - 1 ≤ 2 / 3 * ((1 + u) ^ (n + 2) - 1) := by
    have : (1 + u) ^ 3 ≤ (1 + u) ^ (n + 2) := pow_le_pow_right₀ (by linarith) (by omega)
    have h3 : 0 ≤ u ^ 2 := by positivity
    have h4 : 0 ≤ u ^ 3 := by positivity
    nlinarith
  have g2 : 0 ≤ (1 + u) ^ 2 - 1 := by linarith [one_le_growth h 2]
  generalize (1 + u) ^ (n + 2) - 1 = γ at *
  have hLe' : |L - norm2 v| ≤ γ * norm2 v := hLe.trans (mul_le_mul_of_nonneg_right (by linarith) pv.le)
  have hLl : 0.999 * norm2 v ≤ L := by have := (abs_le.1 hLe').1; nlinarith
  have e : (fun i => norm v i - v i / norm2 v) = fun i => (norm v i - v i / L) + ((norm2 v - L) / L / norm2 v) * v i := by
    funext i; field_simp; ring
  rw [e]
  refine (norm2_add_le _ _).trans ?_
  have k1 : norm2 (fun i => norm v i - v i / L) ≤ ((1 + u) ^ 2 - 1) * norm2 fun i => v i / L := norm2_le_mul g2 hq
  have e2 : norm2 (fun i => v i / L) = norm2 v / L := by
    rw [show (fun i => v i / L) = fun i => L⁻¹ * v i from funext fun i => by rw [div_eq_inv_mul], norm2_smul, abs_of_pos (inv_pos.2 hL), div_eq_inv_mul]
  have k2 : norm2 v / L ≤ 1.002 := by rw [div_le_iff₀ hL]; linarith
  have hk0 : 0 ≤ norm2 v / L := by positivity
  rw [e2] at k1
  rw [norm2_smul, abs_div, abs_div, abs_of_pos hL, abs_of_pos pv, div_mul_cancel₀ _ pv.ne', abs_sub_comm]
  have k3 : |L - norm2 v| / L ≤ γ * (norm2 v / L) := by
    rw [← mul_div_assoc]; exact div_le_div_of_nonneg_right hLe' hL.le
  have hγ : 0 ≤ γ := by linarith
  nlinarith

/-- The look axis after the projection on the side axis. -/
theorem look_pair (h : Rounding fl u) {msub : ℝ → ℝ → ℝ → ℝ} (hms : IsMulSub fl msub) {dot : (Fin n → ℝ) → (Fin n → ℝ) → ℝ} (hd : IsDot u n dot)
    {norm : (Fin n → ℝ) → Fin n → ℝ} {k : ℕ} (hn : IsNormalize u k norm) (hn1 : 1 ≤ n) (hg : (1 + u) ^ (n + 2) - 1 ≤ 1 / 1000) {S L : Fin n → ℝ}
    (hS : S ≠ 0) (hL : L ≠ 0) (hSL : |∑ i, L i * S i| ≤ 1.01 * ((1 + u) ^ (n + 2) - 1) * (norm2 L * norm2 S)) :
    ∃ L1, gsInner fl msub dot norm [S] L = some L1 ∧ norm2 (fun i => L1 i - L i) ≤ 9.1 * ((1 + u) ^ (n + 2) - 1) * norm2 L ∧
      |∑ i, S i * L1 i| ≤ 5 * ((1 + u) ^ (n + 2) - 1) * (norm2 S * norm2 L) := by
  obtain ⟨f, hf, hfe⟩ := gsCoef_err h hd hn hn1 hg hS L
  obtain ⟨s1, s2, s3, s4⟩ := gsStep_err h hms hd hn hn1 hg hf
  refine ⟨fun i => msub (L i) f (S i), by simp [gsInner, hf], ?_, s4⟩
  have pS := norm2_pos hS
  have pL := norm2_pos hL
  have fS : |f| * norm2 S ≤ 4.01 * ((1 + u) ^ (n + 2) - 1) * norm2 L := by
    have t := abs_sub_abs_le_abs_sub (f * norm2 S ^ 2) (∑ i, L i * S i)
    rw [abs_mul, abs_of_pos (by positivity : 0 < norm2 S ^ 2)] at t
    have : |f| * norm2 S * norm2 S ≤ 4.01 * ((1 + u) ^ (n + 2) - 1) * norm2 L * norm2 S := by nlinarith
    exact le_of_mul_le_mul_right this pS
  have t := norm2_add_le (fun i => L i - (msub (L i) f (S i) + f * S i)) (fun i => f * S i)
  rw [norm2_smul] at t
  rw [← norm2_neg]
  rw [show (fun i => L i - (msub (L i) f (S i) + f * S i) + f * S i) = fun i => -(msub (L i) f (S i) - L i) from funext fun i => by ring] at t
  have hγ : 0 ≤ ((1 + u) ^ (n + 2) - 1) * norm2 L := mul_nonneg (by linarith [one_le_growth h (n + 2)]) pL.le
  linarith

/-- The inner product of two nearly normalised vectors. -/
theorem dot_dir {a b a' b' : Fin n → ℝ} (ha : a ≠ 0) (hb : b ≠ 0) {γ : ℝ} (hγ : 0 ≤ γ) (hγ1 : γ ≤ 1 / 1000)
    (ha' : norm2 (fun i => a' i - a i / norm2 a) ≤ 2 * γ) (hb' : norm2 (fun i => b' i - b i / norm2 b) ≤ 2 * γ) :
    |∑ i, a' i * b' i - (∑ i, a i * b i) / (norm2 a * norm2 b)| ≤ 4.01 * γ := by
  have pa := norm2_pos ha
  have pb := norm2_pos hb
  have unit : ∀ {v : Fin n → ℝ}, v ≠ 0 → norm2 (fun i => v i / norm2 v) = 1 := fun {v} hv => by
    have pv := norm2_pos hv
    rw [show (fun i => v i / norm2 v) = fun i => (norm2 v)⁻¹ * v i from funext fun i => by rw [div_eq_inv_mul], norm2_smul, abs_of_pos (inv_pos.2 pv),
      inv_mul_cancel₀ pv.ne']
  have e : ∑ i, a' i * b' i - (∑ i, a i * b i) / (norm2 a * norm2 b) =
      ∑ i, (a i / norm2 a) * (b' i - b i / norm2 b) + ∑ i, (a' i - a i / norm2 a) * b' i := by
    rw [Finset.sum_div, ← Finset.sum_add_distrib, ← Finset.sum_sub_distrib]
    refine Finset.sum_congr rfl fun i _ => ?_
    field_simp
    ring
  have k1 := dot_abs_le (fun i => a i / norm2 a) (fun i => b' i - b i / norm2 b)
  have k2 := dot_abs_le (fun i => a' i - a i / norm2 a) b'
  rw [unit ha, one_mul] at k1
  have k3 : norm2 b' ≤ 1 + 2 * γ := by
    have := norm2_add_le (fun i => b' i - b i / norm2 b) (fun i => b i / norm2 b)
    rw [unit hb] at this
    simp only [sub_add_cancel] at this
    linarith
  have k5 : norm2 (fun i => a' i - a i / norm2 a) * norm2 b' ≤ 2 * γ * (1 + 2 * γ) := mul_le_mul ha' k3 (norm2_nonneg _) (by positivity)
  rw [e]
  have t2 := abs_add_le (∑ i, (a i / norm2 a) * (b' i - b i / norm2 b)) (∑ i, (a' i - a i / norm2 a) * b' i)
  nlinarith

/-- The inner product of two nearly normalised, nearly orthogonal vectors. -/
theorem dot_dir_le {a b a' b' : Fin n → ℝ} (ha : a ≠ 0) (hb : b ≠ 0) {γ c : ℝ} (hγ : 0 ≤ γ) (hγ1 : γ ≤ 1 / 1000) (h : |∑ i, a i * b i| ≤ c * (norm2 a * norm2 b))
    (ha' : norm2 (fun i => a' i - a i / norm2 a) ≤ 2 * γ) (hb' : norm2 (fun i => b' i - b i / norm2 b) ≤ 2 * γ) : |∑ i, a' i * b' i| ≤ c + 4.01 * γ := by
  have hp := mul_pos (norm2_pos ha) (norm2_pos hb)
  have k4 : |(∑ i, a i * b i) / (norm2 a * norm2 b)| ≤ c := by
    rw [abs_div, abs_of_pos hp, div_le_iff₀ hp]; exact h
  have t := abs_sub_abs_le_abs_sub (∑ i, a' i * b' i) ((∑ i, a i * b i) / (norm2 a * norm2 b))
  linarith [dot_dir ha hb hγ hγ1 ha' hb']

/-- A nearly normalised vector is nearly a unit vector. -/
theorem norm2_dir {a a' : Fin n → ℝ} (ha : a ≠ 0) {d : ℝ} (h : norm2 (fun i => a' i - a i / norm2 a) ≤ d) : |norm2 a' - 1| ≤ d := by
  have pa := norm2_pos ha
  have e : norm2 (fun i => a i / norm2 a) = 1 := by
    rw [show (fun i => a i / norm2 a) = fun i => (norm2 a)⁻¹ * a i from funext fun i => by rw [div_eq_inv_mul], norm2_smul, abs_of_pos (inv_pos.2 pa),
      inv_mul_cancel₀ pa.ne']
  have := norm2_sub_le a' (fun i => a i / norm2 a)
  rw [e] at this
  exact this.trans h

/-- A rounded difference. -/
theorem look_axis (h : Rounding fl u) (hu1 : u < 1) {E : Fin n → ℝ} (hE : E ≠ 0) :
    (fun i => fl (E i)) ≠ 0 ∧ norm2 (fun i => fl (E i) - E i) ≤ u * norm2 E := by
  have k : norm2 (fun i => fl (E i) - E i) ≤ u * norm2 E := norm2_le_mul h.u_nonneg fun i => h.err _
  refine ⟨fun e => ?_, k⟩
  have e' : ∀ i, fl (E i) = 0 := fun i => congrFun e i
  simp only [e', zero_sub] at k
  rw [norm2_neg E] at k
  have := norm2_pos hE
  nlinarith

/-- The direction of the look axis, from all its errors. -/
theorem look_dir {γ : ℝ} (hγ : 0 ≤ γ) (huγ : 2 * u ≤ γ) {E L L1 l : Fin n → ℝ} (hE : E ≠ 0) (hL : L ≠ 0)
    (hL1 : L1 ≠ 0) (e0 : norm2 (fun i => L i - E i) ≤ u * norm2 E) (e1 : norm2 (fun i => L1 i - L i) ≤ 9.1 * γ * norm2 L)
    (e2 : norm2 (fun i => l i - L1 i / norm2 L1) ≤ 2 * γ) : norm2 (fun i => l i - E i / norm2 E) ≤ 22 * γ := by
  have a := norm2_dir_le hL hE e0
  have b := norm2_dir_le hL1 hL e1
  have t1 := norm2_add_le (fun i => l i - L1 i / norm2 L1) (fun i => L1 i / norm2 L1 - L i / norm2 L)
  have t2 := norm2_add_le (fun i => (l i - L1 i / norm2 L1) + (L1 i / norm2 L1 - L i / norm2 L)) (fun i => L i / norm2 L - E i / norm2 E)
  have e : (fun i => (l i - L1 i / norm2 L1) + (L1 i / norm2 L1 - L i / norm2 L) + (L i / norm2 L - E i / norm2 E)) = fun i => l i - E i / norm2 E :=
    funext fun i => by ring
  rw [e] at t2
  linarith

/-- The changed look axis is not zero. -/
theorem look_ne {γ : ℝ} (hγ1 : γ ≤ 1 / 1000) {L L1 : Fin n → ℝ} (hL : L ≠ 0) (e1 : norm2 (fun i => L1 i - L i) ≤ 9.1 * γ * norm2 L) :
    0.99 * norm2 L ≤ norm2 L1 ∧ L1 ≠ 0 := by
  have pL := norm2_pos hL
  have t := norm2_sub_le L1 L
  have t2 := (abs_le.1 (t.trans e1)).1
  have k : 0.99 * norm2 L ≤ norm2 L1 := by nlinarith
  refine ⟨k, fun e => ?_⟩
  rw [e, show norm2 (0 : Fin n → ℝ) = 0 from norm2_zero] at k
  linarith

/-- The camera coordinate of the target along a side axis. -/
theorem target_side {γ : ℝ} (hγ : 0 ≤ γ) (hγ1 : γ ≤ 1 / 1000) {dot : (Fin n → ℝ) → (Fin n → ℝ) → ℝ} (hd : ∀ x y, |dot x y - ∑ i, x i * y i| ≤ γ * ∑ i, |x i * y i|)
    {eye target s l : Fin n → ℝ} (hE : eye - target ≠ 0) (s1 : |norm2 s - 1| ≤ 2 * γ) (sl : |∑ i, s i * l i| ≤ 10 * γ)
    (hl : norm2 (fun i => l i - (eye - target) i / norm2 (eye - target)) ≤ 22 * γ) {σ : Bool} :
    |∑ i, target i * (if σ then -s else s) i + dot (-eye) (if σ then -s else s)| ≤ 33 * γ * norm2 (eye - target) + 1.1 * γ * norm2 eye := by
  have pE := norm2_pos hE
  have key : ∀ t : Fin n → ℝ, |norm2 t - 1| ≤ 2 * γ → |∑ i, t i * l i| ≤ 10 * γ →
      |∑ i, target i * t i + dot (-eye) t| ≤ 33 * γ * norm2 (eye - target) + 1.1 * γ * norm2 eye := by
    intro t t1 tl
    have tn : norm2 t ≤ 1.002 := by have := (abs_le.1 t1).2; linarith
    have k1 := hd (-eye) t
    have k2 : ∑ i, |(-eye) i * t i| ≤ norm2 eye * norm2 t := by
      simp only [Pi.neg_apply, abs_mul, abs_neg]
      exact abs_dot_le eye t
    have k3 := dot_abs_le t (fun i => l i - (eye - target) i / norm2 (eye - target))
    have e : ∑ i, target i * t i + ∑ i, (-eye) i * t i = norm2 (eye - target) * (∑ i, t i * (l i - (eye - target) i / norm2 (eye - target)) - ∑ i, t i * l i) := by
      rw [← Finset.sum_add_distrib, ← Finset.sum_sub_distrib, Finset.mul_sum]
      refine Finset.sum_congr rfl fun i _ => ?_
      simp only [Pi.neg_apply, Pi.sub_apply]
      field_simp
      ring
    have k4 : |∑ i, target i * t i + ∑ i, (-eye) i * t i| ≤ norm2 (eye - target) * (33 * γ) := by
      rw [e, abs_mul, abs_of_pos pE]
      refine mul_le_mul_of_nonneg_left ?_ pE.le
      have := abs_sub (∑ i, t i * (l i - (eye - target) i / norm2 (eye - target))) (∑ i, t i * l i)
      have k5 : norm2 t * norm2 (fun i => l i - (eye - target) i / norm2 (eye - target)) ≤ 1.002 * (22 * γ) := mul_le_mul tn hl (norm2_nonneg _) (by norm_num)
      linarith
    have k6 : γ * ∑ i, |(-eye) i * t i| ≤ γ * (norm2 eye * 1.002) :=
      mul_le_mul_of_nonneg_left (k2.trans (mul_le_mul_of_nonneg_left tn (norm2_nonneg _))) hγ
    have k7 := abs_add_le (∑ i, target i * t i + ∑ i, (-eye) i * t i) (dot (-eye) t - ∑ i, (-eye) i * t i)
    rw [show ∑ i, target i * t i + ∑ i, (-eye) i * t i + (dot (-eye) t - ∑ i, (-eye) i * t i) = ∑ i, target i * t i + dot (-eye) t by ring] at k7
    have k8 : 0 ≤ γ * norm2 eye := mul_nonneg hγ (norm2_nonneg _)
    linarith
  cases σ with
  | false => exact key s s1 sl
  | true =>
    refine key (-s) ?_ ?_
    · rw [show norm2 (-s) = norm2 s from norm2_neg s]; exact s1
    · simp only [Pi.neg_apply, neg_mul, Finset.sum_neg_distrib, abs_neg]; exact sl

/-! ## Three dimensions -/

/-- Lagrange's identity. -/
theorem norm2_cross_sq (a b : Fin 3 → ℝ) : norm2 (crossProduct a b) ^ 2 = norm2 a ^ 2 * norm2 b ^ 2 - (∑ i, a i * b i) ^ 2 := by
  simp only [norm2_sq, Fin.sum_univ_three, cross_apply, Matrix.cons_val_zero, Matrix.cons_val_one, Matrix.cons_val_two, Matrix.tail_cons, Matrix.head_cons]
  ring

/-- The distance of a point from a line. -/
theorem norm2_cross_le (a b : Fin 3 → ℝ) (t : ℝ) : norm2 (crossProduct a b) ≤ norm2 (fun i => a i - t * b i) * norm2 b := by
  have e : crossProduct a b = crossProduct (fun i => a i - t * b i) b := by
    funext i
    fin_cases i <;> simp [cross_apply] <;> ring
  have := norm2_cross_sq (fun i => a i - t * b i) b
  rw [← e] at this
  refine (pow_le_pow_iff_left₀ (norm2_nonneg _) (mul_nonneg (norm2_nonneg _) (norm2_nonneg _)) two_ne_zero).1 ?_
  rw [mul_pow, this]
  linarith [sq_nonneg (∑ i, (a i - t * b i) * b i)]

/-- The computed side axis is nearly orthogonal to both vectors. -/
theorem side_axis {γ : ℝ} (hγ : 0 ≤ γ) (hγ1 : γ ≤ 1 / 1000) {a b S : Fin 3 → ℝ} (hX : crossProduct a b ≠ 0)
    (hS : ∀ i, |S i - crossProduct a b i| ≤ γ * |crossProduct a b i|) :
    S ≠ 0 ∧ norm2 (fun i => S i - crossProduct a b i) ≤ γ * norm2 (crossProduct a b) ∧ 0.999 * norm2 (crossProduct a b) ≤ norm2 S ∧
      |∑ i, b i * S i| ≤ 1.01 * γ * (norm2 b * norm2 S) := by
  have pX := norm2_pos hX
  have k : norm2 (fun i => S i - crossProduct a b i) ≤ γ * norm2 (crossProduct a b) := norm2_le_mul hγ hS
  have t := (abs_le.1 ((norm2_sub_le S (crossProduct a b)).trans k)).1
  have l : 0.999 * norm2 (crossProduct a b) ≤ norm2 S := by nlinarith
  refine ⟨fun e => ?_, k, l, ?_⟩
  · rw [e, show norm2 (0 : Fin 3 → ℝ) = 0 from norm2_zero] at l
    linarith
  · have o : ∑ i, b i * S i = ∑ i, b i * (S i - crossProduct a b i) := by
      simp only [Fin.sum_univ_three, cross_apply, Matrix.cons_val_zero, Matrix.cons_val_one, Matrix.cons_val_two, Matrix.tail_cons, Matrix.head_cons]
      ring
    have d := dot_abs_le b (fun i => S i - crossProduct a b i)
    rw [o]
    have hb := norm2_nonneg b
    have d2 := mul_le_mul_of_nonneg_left k hb
    have d3 : γ * norm2 (crossProduct a b) ≤ 1.01 * γ * norm2 S := by nlinarith
    have d4 := mul_le_mul_of_nonneg_left d3 hb
    linarith

/-- The up axis after the projections. -/
theorem look_up (h : Rounding fl u) {msub : ℝ → ℝ → ℝ → ℝ} (hms : IsMulSub fl msub) {dot : (Fin 3 → ℝ) → (Fin 3 → ℝ) → ℝ} (hd : IsDot u 3 dot)
    {norm : (Fin 3 → ℝ) → Fin 3 → ℝ} {k : ℕ} (hn : IsNormalize u k norm) {γ : ℝ} (hγ : γ = (1 + u) ^ 5 - 1) (hg : γ ≤ 1 / 1000) {a L S L1 W : Fin 3 → ℝ}
    (hX : crossProduct a L ≠ 0) (hS : ∀ i, |S i - crossProduct a L i| ≤ γ * |crossProduct a L i|)
    (e1 : norm2 (fun i => L1 i - L i) ≤ 9.1 * γ * norm2 L) (e2 : |∑ i, S i * L1 i| ≤ 5 * γ * (norm2 S * norm2 L))
    (hW : gsInner fl msub dot norm [S, L1] a = some W) :
    |∑ i, S i * W i| ≤ 15.5 * γ * (norm2 S * norm2 a) ∧ |∑ i, L1 i * W i| ≤ 10.1 * γ * (norm2 L1 * norm2 a) ∧
      norm2 (crossProduct a L) ≤ (norm2 W + 20.5 * γ * norm2 a) * norm2 L := by
  have hγ0 : 0 ≤ γ := by rw [hγ]; linarith [one_le_growth h 5]
  have hL : L ≠ 0 := by
    rintro rfl
    exact hX (by simp)
  obtain ⟨lL, hL1⟩ := look_ne hg hL e1
  obtain ⟨hS0, sk, sl, -⟩ := side_axis hγ0 hg hX hS
  obtain ⟨-, ⟨f, g1, g2⟩, g3⟩ := gsInner_err h hms hd hn (by norm_num) (by rw [← hγ]; exact hg) rfl [S, L1] a W hW
  rw [show 3 + 2 = 5 from rfl, ← hγ] at g1 g2 g3
  have pL := norm2_pos hL
  have pL1 := norm2_pos hL1
  have pS := norm2_pos hS0
  have pa := norm2_nonneg a
  simp only [List.length_cons, List.length_nil, Nat.zero_add, Nat.reduceAdd] at g1 g2 g3
  have q1 : (1 + 5 * γ) ^ 2 - 1 ≤ 10.03 * γ := by nlinarith
  have q2 : (1 + 5 * γ) ^ 2 ≤ 1.0101 := by nlinarith
  have q0 : 1 ≤ (1 + 5 * γ) ^ 2 := by nlinarith
  refine ⟨?_, ?_, ?_⟩
  · have := g3 [] S [L1] rfl
    simp only [List.map_cons, List.map_nil, List.sum_cons, List.sum_nil, add_zero] at this
    have r : |∑ i, S i * L1 i| / norm2 L1 ≤ 5.06 * γ * norm2 S := by
      rw [div_le_iff₀ pL1]
      have : γ * norm2 S * (0.99 * norm2 L) ≤ γ * norm2 S * norm2 L1 := mul_le_mul_of_nonneg_left lL (by positivity)
      have p0 : 0 ≤ γ * norm2 S * norm2 L := by positivity
      linarith
    have r0 : 0 ≤ |∑ i, S i * L1 i| / norm2 L1 := by positivity
    have r1 : (1 + 5 * γ) ^ 2 * (|∑ i, S i * L1 i| / norm2 L1) ≤ 1.0101 * (5.06 * γ * norm2 S) := mul_le_mul q2 r r0 (by norm_num)
    have r2 : ((1 + 5 * γ) ^ 2 - 1) * norm2 S ≤ 10.03 * γ * norm2 S := mul_le_mul_of_nonneg_right q1 pS.le
    have r3 := mul_le_mul_of_nonneg_left (add_le_add r2 r1) pa
    have r4 : 0 ≤ γ * (norm2 S * norm2 a) := by positivity
    refine this.trans (r3.trans ?_)
    linarith
  · have := g3 [S] L1 [] rfl
    simp only [List.map_nil, List.sum_nil, mul_zero, add_zero] at this
    have r2 : ((1 + 5 * γ) ^ 2 - 1) * norm2 L1 ≤ 10.03 * γ * norm2 L1 := mul_le_mul_of_nonneg_right q1 pL1.le
    have r3 := mul_le_mul_of_nonneg_left r2 pa
    have r4 : 0 ≤ γ * (norm2 L1 * norm2 a) := by positivity
    refine this.trans (r3.trans ?_)
    linarith
  · obtain ⟨f0, f1, hf0, hf1, gg⟩ : ∃ f0 f1 : ℝ, |f0| * norm2 S ≤ 1.0101 * norm2 a ∧ |f1| * norm2 L1 ≤ 1.0101 * norm2 a ∧
        norm2 (fun i => a i - (W i + (f0 * S i + f1 * L1 i))) ≤ 10.03 * γ * norm2 a := by
      refine ⟨f 0, f 1, (g2 0).trans (mul_le_mul_of_nonneg_right q2 pa), (g2 1).trans (mul_le_mul_of_nonneg_right q2 pa), ?_⟩
      refine le_trans (le_of_eq ?_) (g1.trans (mul_le_mul_of_nonneg_right q1 pa))
      congr 1
      funext i
      rw [Fin.sum_univ_two]
      rfl
    -- the distance of the up vector from the plane of the side axis and the look axis
    have y := norm2_cross_le a L f1
    have z : norm2 (fun i => a i - f1 * L i) ≤ norm2 (fun i => a i - f1 * L i - f0 * crossProduct a L i) := by
      refine (pow_le_pow_iff_left₀ (norm2_nonneg _) (norm2_nonneg _) two_ne_zero).1 ?_
      have o : ∑ i, (a i - f1 * L i) * crossProduct a L i = 0 := by
        simp only [Fin.sum_univ_three, cross_apply, Matrix.cons_val_zero, Matrix.cons_val_one, Matrix.cons_val_two, Matrix.tail_cons, Matrix.head_cons]
        ring
      rw [norm2_sq, norm2_sq]
      have : ∑ i, (a i - f1 * L i - f0 * crossProduct a L i) ^ 2 = ∑ i, (a i - f1 * L i) ^ 2 - 2 * f0 * ∑ i, (a i - f1 * L i) * crossProduct a L i +
          f0 ^ 2 * ∑ i, crossProduct a L i ^ 2 := by
        rw [Finset.mul_sum, Finset.mul_sum, ← Finset.sum_sub_distrib, ← Finset.sum_add_distrib]
        exact Finset.sum_congr rfl fun i _ => by ring
      rw [this, o]
      have : 0 ≤ f0 ^ 2 * ∑ i, crossProduct a L i ^ 2 := mul_nonneg (sq_nonneg _) (Finset.sum_nonneg fun _ _ => sq_nonneg _)
      linarith
    have w : norm2 (fun i => a i - f1 * L i - f0 * crossProduct a L i) ≤
        norm2 W + norm2 (fun i => a i - (W i + (f0 * S i + f1 * L1 i))) + |f0| * norm2 (fun i => S i - crossProduct a L i) +
          |f1| * norm2 (fun i => L1 i - L i) := by
      have t1 := norm2_add_le W (fun i => a i - (W i + (f0 * S i + f1 * L1 i)))
      have t2 := norm2_add_le (fun i => W i + (a i - (W i + (f0 * S i + f1 * L1 i)))) (fun i => f0 * (S i - crossProduct a L i))
      have t3 := norm2_add_le (fun i => W i + (a i - (W i + (f0 * S i + f1 * L1 i))) + f0 * (S i - crossProduct a L i)) (fun i => f1 * (L1 i - L i))
      rw [norm2_smul] at t2 t3
      have e : (fun i => W i + (a i - (W i + (f0 * S i + f1 * L1 i))) + f0 * (S i - crossProduct a L i) + f1 * (L1 i - L i)) =
          fun i => a i - f1 * L i - f0 * crossProduct a L i := funext fun i => by ring
      rw [e] at t3
      linarith
    have b0 : |f0| * norm2 (fun i => S i - crossProduct a L i) ≤ 1.03 * γ * norm2 a := by
      have c1 := mul_le_mul_of_nonneg_left (sk.trans (mul_le_mul_of_nonneg_left (show norm2 (crossProduct a L) ≤ 1.0011 * norm2 S by linarith) hγ0)) (abs_nonneg f0)
      have c2 := mul_le_mul_of_nonneg_left hf0 hγ0
      have c3 : 0 ≤ γ * norm2 a := by positivity
      nlinarith
    have b1 : |f1| * norm2 (fun i => L1 i - L i) ≤ 9.3 * γ * norm2 a := by
      have c0 : 9.1 * γ * norm2 L ≤ 9.2 * γ * norm2 L1 := by nlinarith
      have c1 := mul_le_mul_of_nonneg_left (e1.trans c0) (abs_nonneg f1)
      have c2 := mul_le_mul_of_nonneg_left hf1 hγ0
      have c3 : 0 ≤ γ * norm2 a := by positivity
      nlinarith
    refine y.trans (mul_le_mul_of_nonneg_right ?_ pL.le)
    have c3 : 0 ≤ γ * norm2 a := by positivity
    linarith

end Mathter.Fl
