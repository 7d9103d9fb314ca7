import Verif.Model.RoundedComplexGram
import Verif.Spec.NormC

/-! # Lemmas about the rounded Gram-Schmidt orthogonalisation of complex vectors -/

namespace Mathter.FlC
open Mathter Mathter.Fl
variable {n : ℕ} {δ γ : ℝ}

theorem normC_pos {v : Fin n → ℂ} (h : v ≠ 0) : 0 < normC v :=
  lt_of_le_of_ne (normC_nonneg v) fun e => h (funext fun i => normC_eq_zero e.symm i)

theorem dotC_le (x y : Fin n → ℂ) : ‖∑ i, x i * star (y i)‖ ≤ normC x * normC y := by
  refine (norm_sum_le _ _).trans (le_trans (le_of_eq ?_) (normC_dot_le x y))
  exact Finset.sum_congr rfl fun i _ => by rw [norm_mul, norm_star]

/-- What the orthogonalisation needs to know of the operations: every one has a small error. -/
structure GramArith (δ : ℝ) (dq : ℂ → ℂ → ℂ) (msub : ℂ → ℂ → ℂ → ℂ) (dot : (Fin n → ℂ) → (Fin n → ℂ) → ℂ) (norm : (Fin n → ℂ) → Fin n → ℂ) : Prop where
  nonneg : 0 ≤ δ
  div : ∀ a b, b ≠ 0 → ‖dq a b - a / b‖ ≤ δ * ‖a / b‖
  sub : ∀ a b d, ‖msub a b d - (a - b * d)‖ ≤ δ * (‖a‖ + ‖b * d‖)
  dot : ∀ x y, ‖dot x y - ∑ i, x i * star (y i)‖ ≤ δ * ∑ i, ‖x i‖ * ‖y i‖
  norm : ∀ v, v ≠ 0 → ∃ L : ℝ, 0 < L ∧ |L - normC v| ≤ δ * normC v ∧ ∀ i, ‖norm v i - v i / (L : ℂ)‖ ≤ δ * ‖v i / (L : ℂ)‖

variable {dq : ℂ → ℂ → ℂ} {msub : ℂ → ℂ → ℂ → ℂ} {dot : (Fin n → ℂ) → (Fin n → ℂ) → ℂ} {norm : (Fin n → ℂ) → Fin n → ℂ}

/-- The factor of a projection. -/
theorem gsCoef_err (h : GramArith δ dq msub dot norm) (hγ : γ = (1 + δ) ^ 2 - 1) (hg : γ ≤ 1 / 1000) {q : Fin n → ℂ} (hq : q ≠ 0) (v : Fin n → ℂ) :
    ∃ f, gsCoefC dq dot norm q v = some f ∧ ‖f * ((normC q ^ 2 : ℝ) : ℂ) - ∑ i, v i * star (q i)‖ ≤ 3 * γ * (normC v * normC q) := by
  have hδ := h.nonneg
  obtain ⟨L, hL, -, hq'⟩ := h.norm q hq
  have hqp := normC_pos hq
  have hvn := normC_nonneg v
  unfold gsCoefC
  dsimp only
  generalize norm q = y at *
  have hLc : (L : ℂ) ≠ 0 := by exact_mod_cast hL.ne'
  have hnL : ‖(L : ℂ)‖ = L := Complex.norm_of_nonneg hL.le
  have near : ∀ w : Fin n → ℂ, ‖dot w y - (∑ i, w i * star (q i)) / (L : ℂ)‖ ≤ γ * (normC w * normC q / L) := by
    intro w
    have a := h.dot w y
    have b : ‖∑ i, w i * star (y i) - (∑ i, w i * star (q i)) / (L : ℂ)‖ ≤ δ * ((∑ i, ‖w i‖ * ‖q i‖) / L) := by
      rw [Finset.sum_div, Finset.sum_div, ← Finset.sum_sub_distrib, Finset.mul_sum]
      refine (norm_sum_le _ _).trans (Finset.sum_le_sum fun i _ => ?_)
      have := mul_le_mul_of_nonneg_left (hq' i) (norm_nonneg (w i))
      rw [← norm_star (y i - q i / (L : ℂ)), ← norm_mul, norm_div, hnL] at this
      have e : star (y i - q i / (L : ℂ)) = star (y i) - star (q i) / (L : ℂ) := by
        rw [star_sub, star_div₀]
        congr 2
        exact Complex.conj_ofReal L
      rw [e] at this
      rw [mul_div_assoc, ← mul_sub]
      refine this.trans (le_of_eq ?_)
      ring
    have c : ∑ i, ‖w i‖ * ‖y i‖ ≤ (1 + δ) * ((∑ i, ‖w i‖ * ‖q i‖) / L) := by
      rw [Finset.sum_div, Finset.mul_sum]
      refine Finset.sum_le_sum fun i _ => ?_
      rw [mul_div_assoc]
      have t := norm_sub_norm_le (y i) (q i / (L : ℂ))
      have e := hq' i
      rw [norm_div, hnL] at t e
      have := mul_le_mul_of_nonneg_left (by linarith : ‖y i‖ ≤ (1 + δ) * (‖q i‖ / L)) (norm_nonneg (w i))
      refine this.trans (le_of_eq ?_)
      ring
    have d := mul_le_mul_of_nonneg_left c hδ
    have t := norm_add_le (dot w y - ∑ i, w i * star (y i)) (∑ i, w i * star (y i) - (∑ i, w i * star (q i)) / (L : ℂ))
    rw [sub_add_sub_cancel] at t
    have e := normC_dot_le w q
    have e' := mul_le_mul_of_nonneg_left (div_le_div_of_nonneg_right e hL.le) (by rw [hγ]; nlinarith : 0 ≤ γ)
    refine le_trans ?_ e'
    rw [hγ]
    nlinarith
  have hsq : ∑ i, q i * star (q i) = ((normC q ^ 2 : ℝ) : ℂ) := by rw [normC_sq]; exact Finset.sum_congr rfl fun i _ => by ring
  have nn := near v
  have nd := near q
  rw [hsq, ← pow_two] at nd
  have gu : δ ≤ γ / 2 := by rw [hγ]; nlinarith
  have hdot := dotC_le v q
  have hdiv := h.div
  have hγ0 : 0 ≤ γ := by linarith
  generalize dot v y = N at *
  generalize dot q y = D at *
  generalize (∑ i, v i * star (q i)) = P at *
  generalize normC q = Q at *
  generalize normC v = V at *
  clear near hsq hq' h
  -- scale by `L`
  have nn' : ‖(L : ℂ) * N - P‖ ≤ γ * (V * Q) := by
    have := mul_le_mul_of_nonneg_left nn hL.le
    rw [← hnL, ← norm_mul, hnL, mul_sub, mul_div_cancel₀ _ hLc] at this
    refine this.trans (le_of_eq ?_)
    field_simp
  have nd' : ‖(L : ℂ) * D - ((Q ^ 2 : ℝ) : ℂ)‖ ≤ γ * Q ^ 2 := by
    have := mul_le_mul_of_nonneg_left nd hL.le
    rw [← hnL, ← norm_mul, hnL, mul_sub, mul_div_cancel₀ _ hLc] at this
    refine this.trans (le_of_eq ?_)
    field_simp
  have hQ2 : 0 < Q ^ 2 := by positivity
  have hnQ : ‖((Q ^ 2 : ℝ) : ℂ)‖ = Q ^ 2 := Complex.norm_of_nonneg hQ2.le
  have hLD : (1 - γ) * Q ^ 2 ≤ ‖(L : ℂ) * D‖ := by
    have := norm_sub_norm_le ((Q ^ 2 : ℝ) : ℂ) ((L : ℂ) * D)
    rw [norm_sub_rev, hnQ] at this
    linarith
  have hLD0 : 0 < ‖(L : ℂ) * D‖ := lt_of_lt_of_le (mul_pos (by linarith) hQ2) hLD
  have hD : D ≠ 0 := by
    rintro rfl
    rw [mul_zero, norm_zero] at hLD0
    exact lt_irrefl _ hLD0
  rw [if_neg hD]
  refine ⟨_, rfl, ?_⟩
  have e := hdiv N D hD
  generalize dq N D = g at *
  obtain ⟨z, hz⟩ : ∃ z, N / D = z := ⟨_, rfl⟩
  have hz' : N = z * D := by rw [← hz, div_mul_cancel₀ _ hD]
  rw [hz] at e
  rw [hz', show (L : ℂ) * (z * D) = z * ((L : ℂ) * D) by ring] at nn'
  have hVQ : 0 ≤ V * Q := by positivity
  -- the exact quotient
  have b1 : ‖z‖ * ‖(L : ℂ) * D‖ ≤ (1 + γ) * (V * Q) := by
    have t := norm_sub_norm_le (z * ((L : ℂ) * D)) P
    rw [norm_mul] at t
    linarith
  have b2 : ‖z‖ * Q ^ 2 ≤ 1.003 * (V * Q) := by
    have h1 := mul_le_mul_of_nonneg_left hLD (norm_nonneg z)
    have h2 : ‖z‖ * Q ^ 2 * (1 - γ) ≤ (1 + γ) * (V * Q) := by linarith
    have h3 : 0 ≤ ‖z‖ * Q ^ 2 := by positivity
    nlinarith
  have b3 : ‖z * ((Q ^ 2 : ℝ) : ℂ) - P‖ ≤ γ * (V * Q) + γ * (‖z‖ * Q ^ 2) := by
    have t := norm_add_le (z * ((L : ℂ) * D) - P) (-(z * ((L : ℂ) * D - ((Q ^ 2 : ℝ) : ℂ))))
    rw [show z * ((L : ℂ) * D) - P + -(z * ((L : ℂ) * D - ((Q ^ 2 : ℝ) : ℂ))) = z * ((Q ^ 2 : ℝ) : ℂ) - P by ring, norm_neg, norm_mul] at t
    have := mul_le_mul_of_nonneg_left nd' (norm_nonneg z)
    linarith
  have b4 : ‖g * ((Q ^ 2 : ℝ) : ℂ) - z * ((Q ^ 2 : ℝ) : ℂ)‖ ≤ δ * (‖z‖ * Q ^ 2) := by
    rw [← sub_mul, norm_mul, hnQ, ← mul_assoc]
    exact mul_le_mul_of_nonneg_right e hQ2.le
  have t := norm_add_le (g * ((Q ^ 2 : ℝ) : ℂ) - z * ((Q ^ 2 : ℝ) : ℂ)) (z * ((Q ^ 2 : ℝ) : ℂ) - P)
  rw [sub_add_sub_cancel] at t
  have c1 := mul_le_mul_of_nonneg_left b2 hγ0
  have c2 : δ * (‖z‖ * Q ^ 2) ≤ γ / 2 * (1.003 * (V * Q)) := mul_le_mul gu b2 (by positivity) (by positivity)
  have c3 : 0 ≤ γ * (V * Q) := by positivity
  linarith

/-- A zero vector is not projected on. -/
theorem gsCoef_ne (h : GramArith δ dq msub dot norm) {q v : Fin n → ℂ} {f : ℂ} (hf : gsCoefC dq dot norm q v = some f) : q ≠ 0 := by
  rintro rfl
  unfold gsCoefC at hf
  have := h.dot 0 (norm 0)
  simp only [Pi.zero_apply, zero_mul, Finset.sum_const_zero, norm_zero, mul_zero, sub_zero] at this
  rw [if_pos (norm_le_zero_iff.1 this)] at hf
  cases hf

/-- One step of the inner loop. -/
theorem gsStep_err (h : GramArith δ dq msub dot norm) (hγ : γ = (1 + δ) ^ 2 - 1) (hg : γ ≤ 1 / 1000) {q v : Fin n → ℂ} {f : ℂ}
    (hf : gsCoefC dq dot norm q v = some f) :
    normC (fun i => v i - (msub (v i) f (q i) + f * q i)) ≤ 5 * γ * normC v ∧
      ‖f‖ * normC q ≤ (1 + 5 * γ) * normC v ∧
      normC (fun i => msub (v i) f (q i)) ≤ (1 + 5 * γ) * normC v ∧
      ‖∑ i, msub (v i) f (q i) * star (q i)‖ ≤ 5 * γ * (normC q * normC v) := by
  have hδ := h.nonneg
  have hq := gsCoef_ne h hf
  obtain ⟨f', hf', e⟩ := gsCoef_err h hγ hg hq v
  rw [hf, Option.some.injEq] at hf'
  subst hf'
  have hQ := normC_pos hq
  have hV := normC_nonneg v
  have gu : δ ≤ γ / 2 := by rw [hγ]; nlinarith
  have hγ0 : 0 ≤ γ := by linarith
  have hQ2 : 0 < normC q ^ 2 := by positivity
  have hnQ : ‖((normC q ^ 2 : ℝ) : ℂ)‖ = normC q ^ 2 := Complex.norm_of_nonneg hQ2.le
  have hdot := dotC_le v q
  have fq : ‖f‖ * normC q ≤ (1 + 3 * γ) * normC v := by
    have t := norm_sub_norm_le (f * ((normC q ^ 2 : ℝ) : ℂ)) (∑ i, v i * star (q i))
    rw [norm_mul, hnQ] at t
    have : ‖f‖ * normC q * normC q ≤ (1 + 3 * γ) * normC v * normC q := by nlinarith
    exact le_of_mul_le_mul_right this hQ
  have A : normC (fun i => msub (v i) f (q i) - (v i - f * q i)) ≤ 1.4 * γ * normC v := by
    have k1 : normC (fun i => msub (v i) f (q i) - (v i - f * q i)) ≤ norm2 (fun i => δ * (‖v i‖ + ‖f * q i‖)) :=
      normC_le_norm2 fun i => h.sub _ _ _
    rw [norm2_smul, abs_of_nonneg hδ] at k1
    have k2 := norm2_add_le (fun i => ‖v i‖) (fun i => ‖f * q i‖)
    change _ ≤ normC v + normC (fun i => f * q i) at k2
    rw [normC_smul] at k2
    have k3 := mul_le_mul gu (k2.trans (add_le_add_right fq (normC v))) (norm2_nonneg _) (by linarith)
    refine k1.trans (k3.trans ?_)
    have : γ * γ ≤ γ * (1 / 1000) := mul_le_mul_of_nonneg_left hg hγ0
    have := mul_le_mul_of_nonneg_right this hV
    nlinarith
  have E : normC (fun i => v i - (msub (v i) f (q i) + f * q i)) = normC (fun i => msub (v i) f (q i) - (v i - f * q i)) := by
    rw [← normC_neg]; congr 1; funext i; ring
  have hsq : ∑ i, q i * star (q i) = ((normC q ^ 2 : ℝ) : ℂ) := by rw [normC_sq]; exact Finset.sum_congr rfl fun i _ => by ring
  have B : ‖∑ i, msub (v i) f (q i) * star (q i)‖ ≤ 5 * γ * (normC q * normC v) := by
    have k := dotC_le (fun i => msub (v i) f (q i) - (v i - f * q i)) q
    have k' := mul_le_mul_of_nonneg_right A hQ.le
    have s : ∑ i, (msub (v i) f (q i) - (v i - f * q i)) * star (q i)
        = ∑ i, msub (v i) f (q i) * star (q i) - (∑ i, v i * star (q i) - f * ((normC q ^ 2 : ℝ) : ℂ)) := by
      rw [← hsq, Finset.mul_sum, ← Finset.sum_sub_distrib, ← Finset.sum_sub_distrib]
      exact Finset.sum_congr rfl fun i _ => by ring
    rw [s] at k
    have t := norm_add_le (∑ i, msub (v i) f (q i) * star (q i) - (∑ i, v i * star (q i) - f * ((normC q ^ 2 : ℝ) : ℂ)))
      (∑ i, v i * star (q i) - f * ((normC q ^ 2 : ℝ) : ℂ))
    rw [sub_add_cancel] at t
    rw [norm_sub_rev] at e
    have : 0 ≤ γ * (normC q * normC v) := mul_nonneg hγ0 (mul_nonneg hQ.le hV)
    nlinarith
  refine ⟨?_, fq.trans (mul_le_mul_of_nonneg_right (by linarith) hV), ?_, B⟩
  · rw [E]; exact A.trans (mul_le_mul_of_nonneg_right (by linarith) hV)
  · -- the length: Pythagoras up to the errors
    have p1 : normC (fun i => v i - f * q i) ≤ (1 + 3 * γ) * normC v := by
      have hQc : ((normC q ^ 2 : ℝ) : ℂ) ≠ 0 := by exact_mod_cast hQ2.ne'
      set C := (∑ i, v i * star (q i)) / ((normC q ^ 2 : ℝ) : ℂ) with hC
      have hC' : C * ((normC q ^ 2 : ℝ) : ℂ) = ∑ i, v i * star (q i) := div_mul_cancel₀ _ hQc
      have o : normC (fun i => v i - C * q i) ≤ normC v := by
        have : normC (fun i => v i - C * q i) ^ 2 ≤ normC v ^ 2 := by
          have x : ((normC (fun i => v i - C * q i) ^ 2 : ℝ) : ℂ) = ((normC v ^ 2 - ‖C‖ ^ 2 * normC q ^ 2 : ℝ) : ℂ) := by
            have e1 : ∑ i, q i * star (v i) = star C * ((normC q ^ 2 : ℝ) : ℂ) := by
              have := congrArg star hC'
              rw [star_mul', star_sum] at this
              rw [show star (((normC q ^ 2 : ℝ) : ℂ)) = ((normC q ^ 2 : ℝ) : ℂ) from Complex.conj_ofReal _] at this
              rw [this]
              exact Finset.sum_congr rfl fun i _ => by rw [star_mul', star_star, mul_comm]
            have e2 : ∑ i, star (v i - C * q i) * (v i - C * q i) = ∑ i, star (v i) * v i - C * ∑ i, q i * star (v i)
                - star C * ∑ i, v i * star (q i) + C * star C * ∑ i, star (q i) * q i := by
              rw [Finset.mul_sum, Finset.mul_sum, Finset.mul_sum, ← Finset.sum_sub_distrib, ← Finset.sum_sub_distrib, ← Finset.sum_add_distrib]
              exact Finset.sum_congr rfl fun i _ => by rw [star_sub, star_mul']; ring
            have e3 : C * star C = ((‖C‖ ^ 2 : ℝ) : ℂ) := by
              rw [← Complex.normSq_eq_norm_sq, ← Complex.mul_conj]; rfl
            rw [normC_sq, e2, e1, ← hC', ← normC_sq v, ← normC_sq q]
            push_cast at e3 ⊢
            linear_combination (-1 * (normC q : ℂ) ^ 2) * e3
          have x' : normC (fun i => v i - C * q i) ^ 2 = normC v ^ 2 - ‖C‖ ^ 2 * normC q ^ 2 := by exact_mod_cast x
          rw [x']
          have : 0 ≤ ‖C‖ ^ 2 * normC q ^ 2 := by positivity
          linarith
        exact (sq_le_sq₀ (normC_nonneg _) hV).1 this
      have d : normC (fun i => (C - f) * q i) ≤ 3 * γ * normC v := by
        rw [normC_smul, norm_sub_rev]
        have : ‖f - C‖ * normC q * normC q ≤ 3 * γ * normC v * normC q := by
          rw [mul_assoc, ← pow_two]
          calc ‖f - C‖ * normC q ^ 2 = ‖f - C‖ * ‖((normC q ^ 2 : ℝ) : ℂ)‖ := by rw [hnQ]
            _ = ‖f * ((normC q ^ 2 : ℝ) : ℂ) - ∑ i, v i * star (q i)‖ := by rw [← norm_mul, sub_mul, hC']
            _ ≤ _ := by linarith
        exact le_of_mul_le_mul_right this hQ
      have t := normC_add_le (fun i => v i - C * q i) (fun i => (C - f) * q i)
      rw [show (fun i => v i - C * q i + (C - f) * q i) = fun i => v i - f * q i from funext fun i => by ring] at t
      linarith
    have t := normC_add_le (fun i => msub (v i) f (q i) - (v i - f * q i)) (fun i => v i - f * q i)
    rw [show (fun i => msub (v i) f (q i) - (v i - f * q i) + (v i - f * q i)) = fun i => msub (v i) f (q i) from funext fun i => by ring] at t
    have : 0 ≤ γ * normC v := mul_nonneg hγ0 hV
    linarith

/-- The inner loop. -/
theorem gsInner_err (h : GramArith δ dq msub dot norm) (hγ : γ = (1 + δ) ^ 2 - 1) (hg : γ ≤ 1 / 1000) {ε : ℝ} (hε : 5 * γ ≤ ε) :
    ∀ (us : List (Fin n → ℂ)) (v w : Fin n → ℂ), gsInnerC dq msub dot norm us v = some w →
    normC w ≤ (1 + ε) ^ us.length * normC v ∧
    (∃ f : Fin us.length → ℂ, normC (fun i => v i - (w i + ∑ j, f j * us.get j i)) ≤ ((1 + ε) ^ us.length - 1) * normC v ∧
      ∀ j, ‖f j‖ * normC (us.get j) ≤ (1 + ε) ^ us.length * normC v) ∧
    ∀ l q l', us = l ++ q :: l' → ‖∑ i, w i * star (q i)‖ ≤ normC v * (((1 + ε) ^ us.length - 1) * normC q +
      (1 + ε) ^ us.length * (l'.map fun p => ‖∑ i, p i * star (q i)‖ / normC p).sum) := by
  have hγ0 : 0 ≤ γ := by have := h.nonneg; rw [hγ]; nlinarith
  have he0 : 0 ≤ ε := by linarith
  intro us
  induction us with
  | nil =>
    intro v w hw
    simp only [gsInnerC, Option.some.injEq] at hw
    subst hw
    refine ⟨by simp, ⟨fun j => 0, ?_, fun j => j.elim0⟩, fun l q l' e => by simp at e⟩
    simp [normC_zero]
  | cons q us ih =>
    intro v w hw
    simp only [gsInnerC, Option.bind_eq_some_iff] at hw
    obtain ⟨f, hf, hw⟩ := hw
    obtain ⟨s1, s2, s3, s4⟩ := gsStep_err h hγ hg hf
    replace s1 := s1.trans (mul_le_mul_of_nonneg_right hε (normC_nonneg v))
    replace s2 := s2.trans (mul_le_mul_of_nonneg_right (add_le_add_right hε 1) (normC_nonneg v))
    replace s3 := s3.trans (mul_le_mul_of_nonneg_right (add_le_add_right hε 1) (normC_nonneg v))
    replace s4 := s4.trans (mul_le_mul_of_nonneg_right hε (mul_nonneg (normC_nonneg q) (normC_nonneg v)))
    generalize hv1 : (fun i => msub (v i) f (q i)) = v1 at *
    have hv1' : ∀ i, msub (v i) f (q i) = v1 i := fun i => congrFun hv1 i
    simp only [hv1'] at s1 s4
    obtain ⟨i1, ⟨g, i2, i3⟩, i4⟩ := ih v1 w hw
    have hV := normC_nonneg v
    have hV1 := normC_nonneg v1
    have hp1 : 1 ≤ (1 + ε) ^ us.length := one_le_pow₀ (by linarith)
    have hlen : (q :: us).length = us.length + 1 := rfl
    refine ⟨?_, ⟨Fin.cons f g, ?_, ?_⟩, ?_⟩
    · rw [hlen, pow_succ, mul_assoc]
      exact i1.trans (mul_le_mul_of_nonneg_left s3 (by linarith))
    · have t := normC_add_le (fun i => v i - (v1 i + f * q i)) (fun i => v1 i - (w i + ∑ j, g j * us.get j i))
      rw [show (fun i => v i - (v1 i + f * q i) + (v1 i - (w i + ∑ j, g j * us.get j i))) = fun i => v i -
        (w i + ∑ j : Fin (us.length + 1), (Fin.cons f g : Fin (us.length + 1) → ℂ) j * (q :: us).get j i) from funext fun i => by
          rw [Fin.sum_univ_succ]
          simp only [Fin.cons_zero, Fin.cons_succ, List.get_cons_zero, List.get_cons_succ']
          ring] at t
      refine t.trans ?_
      have := mul_le_mul_of_nonneg_left s3 (by linarith : 0 ≤ (1 + ε) ^ us.length - 1)
      rw [hlen, pow_succ]
      linarith
    · intro j
      refine Fin.cases ?_ (fun j => ?_) j
      · refine s2.trans (mul_le_mul_of_nonneg_right ?_ hV)
        rw [hlen, pow_succ]
        nlinarith
      · refine (i3 j).trans ?_
        rw [hlen, pow_succ, mul_assoc]
        exact mul_le_mul_of_nonneg_left s3 (by linarith)
    · intro l q' l' e
      rw [hlen, pow_succ]
      cases l with
      | nil =>
        simp only [List.nil_append, List.cons.injEq] at e
        obtain ⟨rfl, rfl⟩ := e
        -- the projection on `q` itself
        have hQ := normC_nonneg q
        have d1 := dotC_le (fun i => v1 i - (w i + ∑ j, g j * us.get j i)) q
        have d2 : ∑ i, (v1 i - (w i + ∑ j, g j * us.get j i)) * star (q i)
            = ∑ i, v1 i * star (q i) - ∑ i, w i * star (q i) - ∑ j, g j * ∑ i, us.get j i * star (q i) := by
          simp only [sub_mul, add_mul, Finset.sum_sub_distrib, Finset.sum_add_distrib, Finset.mul_sum, Finset.sum_mul]
          rw [Finset.sum_comm (s := Finset.univ) (t := Finset.univ) (f := fun i j => g j * us.get j i * star (q i))]
          rw [sub_sub]
          congr 2
          exact Finset.sum_congr rfl fun j _ => Finset.sum_congr rfl fun i _ => by ring
        rw [d2] at d1
        have d3 : ‖∑ j, g j * ∑ i, us.get j i * star (q i)‖ ≤ (1 + ε) ^ us.length * normC v1 * (us.map fun p => ‖∑ i, p i * star (q i)‖ / normC p).sum := by
          rw [← Fin.sum_univ_fun_getElem, Finset.mul_sum]
          refine (norm_sum_le _ _).trans (Finset.sum_le_sum fun j _ => ?_)
          have hj := i3 j
          rw [List.get_eq_getElem] at hj ⊢
          rw [norm_mul]
          generalize us[(j : ℕ)] = p at *
          rcases (normC_nonneg p).eq_or_lt with hp | hp
          · have := dotC_le p q
            rw [← hp, zero_mul] at this
            rw [le_antisymm this (norm_nonneg _)]
            simp
          · rw [show ‖g j‖ * ‖∑ i, p i * star (q i)‖ = (‖g j‖ * normC p) * (‖∑ i, p i * star (q i)‖ / normC p) by field_simp]
            exact mul_le_mul_of_nonneg_right hj (div_nonneg (norm_nonneg _) hp.le)
        have hs : 0 ≤ (us.map fun p => ‖∑ i, p i * star (q i)‖ / normC p).sum :=
          List.sum_nonneg fun x hx => by
            obtain ⟨p, -, rfl⟩ := List.mem_map.1 hx
            exact div_nonneg (norm_nonneg _) (normC_nonneg _)
        generalize (us.map fun p => ‖∑ i, p i * star (q i)‖ / normC p).sum = S at *
        have d4 : ‖∑ i, w i * star (q i)‖ ≤ ‖∑ i, v1 i * star (q i)‖ + ‖∑ j, g j * ∑ i, us.get j i * star (q i)‖ +
            ‖∑ i, v1 i * star (q i) - ∑ i, w i * star (q i) - ∑ j, g j * ∑ i, us.get j i * star (q i)‖ := by
          generalize ∑ i, v1 i * star (q i) = A
          generalize ∑ i, w i * star (q i) = B
          generalize ∑ j, g j * ∑ i, us.get j i * star (q i) = C
          have h1 := norm_sub_le (A - C) (A - B - C)
          rw [show A - C - (A - B - C) = B by ring] at h1
          have h2 := norm_sub_le A C
          linarith
        have d5 := mul_le_mul_of_nonneg_right i2 hQ
        have d6 := mul_le_mul_of_nonneg_left s3 (mul_nonneg hQ (by linarith : 0 ≤ (1 + ε) ^ us.length - 1))
        have d7 := mul_le_mul_of_nonneg_left s3 (mul_nonneg (by linarith : 0 ≤ (1 + ε) ^ us.length) hs)
        generalize (1 + ε) ^ us.length = E at *
        nlinarith
      | cons a l =>
        simp only [List.cons_append, List.cons.injEq] at e
        obtain ⟨rfl, e⟩ := e
        have k := i4 l q' l' e
        have hQ := normC_nonneg q'
        have hs : 0 ≤ (l'.map fun p => ‖∑ i, p i * star (q' i)‖ / normC p).sum :=
          List.sum_nonneg fun x hx => by
            obtain ⟨p, -, rfl⟩ := List.mem_map.1 hx
            exact div_nonneg (norm_nonneg _) (normC_nonneg _)
        refine k.trans ?_
        generalize (l'.map fun p => ‖∑ i, p i * star (q' i)‖ / normC p).sum = S at *
        have b0 : 0 ≤ ((1 + ε) ^ us.length - 1) * normC q' + (1 + ε) ^ us.length * S :=
          add_nonneg (mul_nonneg (by linarith) hQ) (mul_nonneg (by linarith) hs)
        refine (mul_le_mul_of_nonneg_right s3 b0).trans ?_
        rw [mul_comm (1 + ε), mul_assoc]
        refine mul_le_mul_of_nonneg_left ?_ hV
        nlinarith

end Mathter.FlC
