import Verif.Model.RoundedGram
import Verif.Model.RoundedGeometry
import Verif.Lemmas.RoundedQR
import Verif.Lemmas.RoundedNear

/-! # Lemmas about the rounded Gram-Schmidt orthogonalisation -/

namespace Mathter.Fl
open Mathter
variable {n : ℕ} {fl : ℝ → ℝ} {u : ℝ}

theorem norm2_pos {v : Fin n → ℝ} (h : v ≠ 0) : 0 < norm2 v :=
  lt_of_le_of_ne (norm2_nonneg v) fun e => h (funext fun i => norm2_eq_zero e.symm i)

/-- `NormalizePrecise` has small relative errors. -/
theorem isNormalize (h : Rounding fl u) (hu : (1 + u) ^ (n + 2) < 2) (c : Cfg) (p : Bool) (conv : Bool) (tb : RTree (batchSize (n + 1) false))
    (ts : RTree (n + 1 + 1)) (htb : tb.Valid) (hts : ts.Valid) : IsNormalize u (n + 3) (normalizePrecise1 c p fl conv tb ts) := by
  intro v hv
  have hu0 := h.u_nonneg
  change ∃ L, 0 < L ∧ |L - norm2 v| ≤ ((1 + u) ^ (n + 3) - 1) * norm2 v ∧ _
  have hle : ∀ i, |v i| ≤ scaleElements v := fun i => by
    unfold scaleElements
    refine le_trans ?_ (Finset.le_sup' _ (Finset.mem_univ i))
    exact le_max_left _ _
  have hs : 0 < scaleElements v := by
    obtain ⟨i, hi⟩ := Function.ne_iff.1 hv
    exact (abs_pos.2 hi).trans_le (hle i)
  unfold normalizePrecise1
  dsimp only
  rw [if_neg hs.ne']
  generalize scaleElements v = s at *
  clear hle
  have e1 := Props.C76_length h conv tb ts htb hts (Vec.ofFn (fun i => fl (v i / s)) : Vec c ℝ (n + 1) p)
  simp only [Vec.get_ofFn] at e1
  change |_ - norm2 (fun i => fl (v i / s))| ≤ _ * norm2 (fun i => fl (v i / s)) at e1
  have hN : norm2 (fun i => v i / s) = norm2 v / s := by
    have := norm2_smul s⁻¹ v
    rw [abs_of_pos (inv_pos.2 hs)] at this
    rw [div_eq_inv_mul, ← this]
    congr 1; funext i; rw [div_eq_inv_mul]
  have e3 : |norm2 (fun i => fl (v i / s)) - norm2 v / s| ≤ u * (norm2 v / s) := by
    rw [← hN]
    exact (norm2_sub_le _ _).trans (norm2_le_mul hu0 fun i => h.err _)
  have hvp := div_pos (norm2_pos hv) hs
  set y : Fin (n + 1) → ℝ := fun i => fl (v i / s) with hy
  have hyn : 0 ≤ norm2 y := norm2_nonneg y
  clear_value y
  generalize length fl conv tb ts (Vec.ofFn y : Vec c ℝ (n + 1) p) = l at *
  have hup : u < 1 := by
    have : 1 + u ≤ (1 + u) ^ (n + 2) := le_self_pow₀ (by linarith) (by omega)
    linarith
  have hy0 : 0 < norm2 y := by
    have := (abs_le.1 e3).1
    nlinarith
  have hl0 : 0 < l := by
    have := (abs_le.1 e1).1
    have g : (1 + u) ^ (n + 1 + 1) = (1 + u) ^ (n + 2) := rfl
    rw [g] at this
    nlinarith
  rw [if_pos hl0.ne']
  refine ⟨s * l, mul_pos hs hl0, ?_, fun i => ?_⟩
  · have e4 : |l - norm2 y| ≤ ((1 + u) ^ (n + 2) - 1) * |norm2 y| := by rw [abs_of_nonneg hyn]; exact e1
    have e5 : |norm2 y - norm2 v / s| ≤ u * |norm2 v / s| := by rw [abs_of_pos hvp]; exact e3
    have k := rel_trans hu0 (by linarith [one_le_growth h (n + 2)]) e5 e4
    rw [abs_of_pos hvp] at k
    have k2 := mul_le_mul_of_nonneg_left k hs.le
    rw [← abs_of_pos hs, ← abs_mul, abs_of_pos hs, mul_sub, mul_div_cancel₀ _ hs.ne'] at k2
    refine k2.trans (le_of_eq ?_)
    have : s * (norm2 v / s) = norm2 v := mul_div_cancel₀ _ hs.ne'
    calc s * (((1 + ((1 + u) ^ (n + 2) - 1)) * (1 + u) - 1) * (norm2 v / s))
        = ((1 + u) ^ (n + 3) - 1) * (s * (norm2 v / s)) := by ring
      _ = _ := by rw [this]
  · have r1 : |y i / l - v i / (s * l)| ≤ u * |v i / (s * l)| := by
      rw [hy, ← div_div, ← sub_div, abs_div, abs_div _ l, abs_of_pos hl0, ← mul_div_assoc]
      exact div_le_div_of_nonneg_right (h.err _) hl0.le
    have r2 := h.err (y i / l)
    have := rel_trans hu0 hu0 r1 r2
    rw [hy] at this
    refine this.trans (le_of_eq ?_)
    ring

/-- The factor of a projection. -/
theorem gsCoef_err (h : Rounding fl u) {dot : (Fin n → ℝ) → (Fin n → ℝ) → ℝ} (hd : IsDot u n dot) {norm : (Fin n → ℝ) → Fin n → ℝ} {k : ℕ}
    (hn : IsNormalize u k norm) (hn1 : 1 ≤ n) (hg : (1 + u) ^ (n + 2) - 1 ≤ 1 / 1000) {q : Fin n → ℝ} (hq : q ≠ 0) (v : Fin n → ℝ) :
    ∃ f, gsCoef fl dot norm q v = some f ∧
      |f * norm2 q ^ 2 - ∑ i, v i * q i| ≤ 3 * ((1 + u) ^ (n + 2) - 1) * (norm2 v * norm2 q) := by
  have hu := h.u_nonneg
  obtain ⟨L, hL, -, hq'⟩ := hn q hq
  have hqp := norm2_pos hq
  have hvn := norm2_nonneg v
  unfold gsCoef
  dsimp only
  generalize norm q = y at *
  have near : ∀ w : Fin n → ℝ, |dot w y - (∑ i, w i * q i) / L| ≤ ((1 + u) ^ (n + 2) - 1) * (norm2 w * norm2 q / L) := by
    intro w
    have a := hd w y
    have b : |∑ i, w i * y i - (∑ i, w i * q i) / L| ≤ ((1 + u) ^ 2 - 1) * ((∑ i, |w i| * |q i|) / L) := by
      rw [Finset.sum_div, Finset.sum_div, ← Finset.sum_sub_distrib, Finset.mul_sum]
      refine (Finset.abs_sum_le_sum_abs _ _).trans (Finset.sum_le_sum fun i _ => ?_)
      have := mul_le_mul_of_nonneg_left (hq' i) (abs_nonneg (w i))
      rw [← abs_mul, abs_div, abs_of_pos hL] at this
      rw [mul_div_assoc, ← mul_sub]
      refine this.trans (le_of_eq ?_)
      ring
    have c : ∑ i, |w i * y i| ≤ (1 + u) ^ 2 * ((∑ i, |w i| * |q i|) / L) := by
      rw [Finset.sum_div, Finset.mul_sum]
      refine Finset.sum_le_sum fun i _ => ?_
      rw [abs_mul, mul_div_assoc]
      have t := abs_sub_abs_le_abs_sub (y i) (q i / L)
      have e := hq' i
      rw [abs_div, abs_of_pos hL] at t e
      have := mul_le_mul_of_nonneg_left (by linarith : |y i| ≤ (1 + u) ^ 2 * (|q i| / L)) (abs_nonneg (w i))
      refine this.trans (le_of_eq ?_)
      ring
    have d := mul_le_mul_of_nonneg_left c (by linarith [one_le_growth h n] : 0 ≤ (1 + u) ^ n - 1)
    have t := abs_add_le (dot w y - ∑ i, w i * y i) (∑ i, w i * y i - (∑ i, w i * q i) / L)
    rw [sub_add_sub_cancel] at t
    have e := abs_dot_le w q
    have e' := mul_le_mul_of_nonneg_left (div_le_div_of_nonneg_right e hL.le) (by linarith [one_le_growth h (n + 2)] : 0 ≤ (1 + u) ^ (n + 2) - 1)
    refine le_trans ?_ e'
    rw [pow_add]
    nlinarith
  have hsq : ∑ i, q i * q i = norm2 q ^ 2 := by rw [norm2_sq]; exact Finset.sum_congr rfl fun i _ => by ring
  have nn := near v
  have nd := near q
  rw [hsq, ← pow_two] at nd
  have gu : u ≤ ((1 + u) ^ (n + 2) - 1) / 3 := by
    have := one_add_mul_le_pow (by linarith : (-2 : ℝ) ≤ u) (n + 2)
    have hc : (3 : ℝ) ≤ ((n + 2 : ℕ) : ℝ) := by exact_mod_cast (by omega : 3 ≤ n + 2)
    have := mul_le_mul_of_nonneg_right hc hu
    linarith
  have hdot := dot_abs_le v q
  generalize (1 + u) ^ (n + 2) - 1 = γ at *
  have hγ : 0 ≤ γ := by linarith
  generalize dot v y = N at *
  generalize dot q y = D at *
  generalize (∑ i, v i * q i) = P at *
  generalize norm2 q = Q at *
  generalize norm2 v = V at *
  clear near hsq hq' hn hd
  -- scale by `L`
  have nn' : |L * N - P| ≤ γ * (V * Q) := by
    have := mul_le_mul_of_nonneg_left nn hL.le
    rw [← abs_of_pos hL, ← abs_mul, abs_of_pos hL, mul_sub, mul_div_cancel₀ _ hL.ne'] at this
    refine this.trans (le_of_eq ?_)
    field_simp
  have nd' : |L * D - Q ^ 2| ≤ γ * Q ^ 2 := by
    have := mul_le_mul_of_nonneg_left nd hL.le
    rw [← abs_of_pos hL, ← abs_mul, abs_of_pos hL, mul_sub, mul_div_cancel₀ _ hL.ne'] at this
    refine this.trans (le_of_eq ?_)
    field_simp
  have hQ2 : 0 < Q ^ 2 := by positivity
  have hLD : (1 - γ) * Q ^ 2 ≤ L * D := by have := (abs_le.1 nd').1; linarith
  have hLD0 : 0 < L * D := lt_of_lt_of_le (mul_pos (by linarith) hQ2) hLD
  have hD : 0 < D := (pos_iff_pos_of_mul_pos hLD0).1 hL
  rw [if_neg hD.ne']
  refine ⟨_, rfl, ?_⟩
  have e := h.err (N / D)
  obtain ⟨z, hz⟩ : ∃ z, N / D = z := ⟨_, rfl⟩
  have hz' : N = z * D := by rw [← hz, div_mul_cancel₀ _ hD.ne']
  rw [hz] at e ⊢
  rw [hz'] at nn'
  have hVQ : 0 ≤ V * Q := by positivity
  -- the exact quotient
  have b1 : |z| * (L * D) ≤ (1 + γ) * (V * Q) := by
    have t := abs_sub_abs_le_abs_sub (L * (z * D)) P
    rw [show L * (z * D) = z * (L * D) by ring, abs_mul, abs_of_pos hLD0] at t
    rw [show L * (z * D) = z * (L * D) by ring] at nn'
    linarith
  have b2 : |z| * Q ^ 2 ≤ 1.003 * (V * Q) := by
    have h1 := mul_le_mul_of_nonneg_left hLD (abs_nonneg z)
    have h2 : |z| * Q ^ 2 * (1 - γ) ≤ (1 + γ) * (V * Q) := by linarith
    have h3 : 0 ≤ |z| * Q ^ 2 := by positivity
    nlinarith
  have b3 : |z * Q ^ 2 - P| ≤ γ * (V * Q) + γ * (|z| * Q ^ 2) := by
    have t := abs_add_le (L * (z * D) - P) (-(z * (L * D - Q ^ 2)))
    rw [show L * (z * D) - P + -(z * (L * D - Q ^ 2)) = z * Q ^ 2 - P by ring, abs_neg, abs_mul] at t
    have := mul_le_mul_of_nonneg_left nd' (abs_nonneg z)
    linarith
  have b4 : |fl z * Q ^ 2 - z * Q ^ 2| ≤ u * (|z| * Q ^ 2) := by
    rw [← sub_mul, abs_mul, abs_of_pos hQ2, ← mul_assoc]
    exact mul_le_mul_of_nonneg_right e hQ2.le
  have t := abs_add_le (fl z * Q ^ 2 - z * Q ^ 2) (z * Q ^ 2 - P)
  rw [sub_add_sub_cancel] at t
  have c1 := mul_le_mul_of_nonneg_left b2 hγ
  have c2 : u * (|z| * Q ^ 2) ≤ γ / 3 * (1.003 * (V * Q)) := mul_le_mul gu b2 (by positivity) (by positivity)
  have c3 : 0 ≤ γ * (V * Q) := by positivity
  linarith

/-- A zero vector is not projected on. -/
theorem gsCoef_ne {dot : (Fin n → ℝ) → (Fin n → ℝ) → ℝ} (hd : IsDot u n dot) {norm : (Fin n → ℝ) → Fin n → ℝ} {q v : Fin n → ℝ} {f : ℝ}
    (h : gsCoef fl dot norm q v = some f) : q ≠ 0 := by
  rintro rfl
  unfold gsCoef at h
  have := hd 0 (norm 0)
  simp only [Pi.zero_apply, zero_mul, Finset.sum_const_zero, abs_zero, mul_zero, sub_zero] at this
  rw [if_pos (abs_nonpos_iff.1 this)] at h
  cases h

/-- One step of the inner loop. -/
theorem gsStep_err (h : Rounding fl u) {msub : ℝ → ℝ → ℝ → ℝ} (hms : IsMulSub fl msub) {dot : (Fin n → ℝ) → (Fin n → ℝ) → ℝ} (hd : IsDot u n dot)
    {norm : (Fin n → ℝ) → Fin n → ℝ} {k : ℕ} (hn : IsNormalize u k norm) (hn1 : 1 ≤ n) (hg : (1 + u) ^ (n + 2) - 1 ≤ 1 / 1000) {q v : Fin n → ℝ} {f : ℝ}
    (hf : gsCoef fl dot norm q v = some f) :
    norm2 (fun i => v i - (msub (v i) f (q i) + f * q i)) ≤ 5 * ((1 + u) ^ (n + 2) - 1) * norm2 v ∧
      |f| * norm2 q ≤ (1 + 5 * ((1 + u) ^ (n + 2) - 1)) * norm2 v ∧
      norm2 (fun i => msub (v i) f (q i)) ≤ (1 + 5 * ((1 + u) ^ (n + 2) - 1)) * norm2 v ∧
      |∑ i, q i * msub (v i) f (q i)| ≤ 5 * ((1 + u) ^ (n + 2) - 1) * (norm2 q * norm2 v) := by
  have hu := h.u_nonneg
  have hq := gsCoef_ne hd hf
  obtain ⟨f', hf', e⟩ := gsCoef_err h hd hn hn1 hg hq v
  rw [hf, Option.some.injEq] at hf'
  subst hf'
  have hQ := norm2_pos hq
  have hV := norm2_nonneg v
  have gu : (1 + u) ^ 2 - 1 ≤ 2 / 3 * ((1 + u) ^ (n + 2) - 1) := by
    have : (1 + u) ^ 3 ≤ (1 + u) ^ (n + 2) := pow_le_pow_right₀ (by linarith) (by omega)
    have h3 : 0 ≤ u ^ 2 := by positivity
    have h4 : 0 ≤ u ^ 3 := by positivity
    nlinarith
  have g2 : 0 ≤ (1 + u) ^ 2 - 1 := by linarith [one_le_growth h 2]
  have hdot := dot_abs_le v q
  have fq : |f| * norm2 q ≤ (1 + 3 * ((1 + u) ^ (n + 2) - 1)) * norm2 v := by
    have t := abs_sub_abs_le_abs_sub (f * norm2 q ^ 2) (∑ i, v i * q i)
    rw [abs_mul, abs_of_pos (by positivity : 0 < norm2 q ^ 2)] at t
    have : |f| * norm2 q * norm2 q ≤ (1 + 3 * ((1 + u) ^ (n + 2) - 1)) * norm2 v * norm2 q := by nlinarith
    exact le_of_mul_le_mul_right this hQ
  have A : norm2 (fun i => msub (v i) f (q i) - (v i - f * q i)) ≤ 1.4 * ((1 + u) ^ (n + 2) - 1) * norm2 v := by
    have hel : ∀ i, |msub (v i) f (q i) - (v i - f * q i)| ≤ ((1 + u) ^ 2 - 1) * (|v i| + |f * q i|) := by
      intro i
      have a : Near u 0 (v i) (v i) |v i| := Near.exact _
      have b : Near u 0 (f * q i) (f * q i) |f * q i| := Near.exact _
      rcases hms (v i) f (q i) with e | e
      · rw [e]
        exact (((a.mono h (Nat.zero_le 1)).sub (b.round h)).round h).err
      · rw [e]
        exact (((a.sub b).round h).mono h (by norm_num)).err
    have k1 : norm2 (fun i => msub (v i) f (q i) - (v i - f * q i)) ≤ norm2 (fun i => ((1 + u) ^ 2 - 1) * (|v i| + |f * q i|)) :=
      norm2_le_of_abs hel
    rw [norm2_smul, abs_of_nonneg g2] at k1
    have k2 := norm2_add_le (fun i => |v i|) (fun i => |f * q i|)
    rw [norm2_abs, norm2_abs, norm2_smul] at k2
    have k3 := mul_le_mul gu (k2.trans (add_le_add_right fq (norm2 v))) (norm2_nonneg _) (by linarith)
    refine k1.trans (k3.trans ?_)
    generalize (1 + u) ^ (n + 2) - 1 = γ at *
    have hγ : 0 ≤ γ := by linarith
    have : γ * γ ≤ γ * (1 / 1000) := mul_le_mul_of_nonneg_left hg hγ
    nlinarith
  have E : norm2 (fun i => v i - (msub (v i) f (q i) + f * q i)) = norm2 (fun i => msub (v i) f (q i) - (v i - f * q i)) := by
    rw [← norm2_neg]; congr 1; funext i; ring
  have hsq : ∑ i, q i * q i = norm2 q ^ 2 := by rw [norm2_sq]; exact Finset.sum_congr rfl fun i _ => by ring
  have B : |∑ i, q i * msub (v i) f (q i)| ≤ 5 * ((1 + u) ^ (n + 2) - 1) * (norm2 q * norm2 v) := by
    have k := dot_abs_le q (fun i => msub (v i) f (q i) - (v i - f * q i))
    have k' := mul_le_mul_of_nonneg_left A hQ.le
    have s : ∑ i, q i * (msub (v i) f (q i) - (v i - f * q i)) = ∑ i, q i * msub (v i) f (q i) - (∑ i, v i * q i - f * norm2 q ^ 2) := by
      rw [← hsq, Finset.mul_sum, ← Finset.sum_sub_distrib, ← Finset.sum_sub_distrib]
      exact Finset.sum_congr rfl fun i _ => by ring
    rw [s] at k
    have t := abs_add_le (∑ i, q i * msub (v i) f (q i) - (∑ i, v i * q i - f * norm2 q ^ 2)) (∑ i, v i * q i - f * norm2 q ^ 2)
    rw [sub_add_cancel] at t
    rw [abs_sub_comm] at e
    have : 0 ≤ ((1 + u) ^ (n + 2) - 1) * (norm2 q * norm2 v) := mul_nonneg (by linarith) (mul_nonneg hQ.le hV)
    nlinarith
  refine ⟨?_, fq.trans (mul_le_mul_of_nonneg_right (by linarith) hV), ?_, B⟩
  · rw [E]; exact A.trans (mul_le_mul_of_nonneg_right (by linarith) hV)
  · -- the length: Pythagoras up to the errors
    have p1 : norm2 (fun i => v i - f * q i) ≤ (1 + 3 * ((1 + u) ^ (n + 2) - 1)) * norm2 v := by
      set C := (∑ i, v i * q i) / norm2 q ^ 2 with hC
      have hC' : C * norm2 q ^ 2 = ∑ i, v i * q i := div_mul_cancel₀ _ (by positivity)
      have o : norm2 (fun i => v i - C * q i) ≤ norm2 v := by
        have : norm2 (fun i => v i - C * q i) ^ 2 ≤ norm2 v ^ 2 := by
          have x : ∑ i, (v i - C * q i) ^ 2 = ∑ i, v i ^ 2 - 2 * C * ∑ i, v i * q i + C ^ 2 * ∑ i, q i ^ 2 := by
            rw [Finset.mul_sum, Finset.mul_sum, ← Finset.sum_sub_distrib, ← Finset.sum_add_distrib]
            exact Finset.sum_congr rfl fun i _ => by ring
          rw [norm2_sq, norm2_sq, x, ← norm2_sq q, ← hC']
          nlinarith [sq_nonneg (C * norm2 q)]
        exact (sq_le_sq₀ (norm2_nonneg _) hV).1 this
      have d : norm2 (fun i => (C - f) * q i) ≤ 3 * ((1 + u) ^ (n + 2) - 1) * norm2 v := by
        rw [norm2_smul, abs_sub_comm]
        have : |f - C| * norm2 q * norm2 q ≤ 3 * ((1 + u) ^ (n + 2) - 1) * norm2 v * norm2 q := by
          rw [mul_assoc, ← pow_two, ← abs_of_pos (by positivity : 0 < norm2 q ^ 2), ← abs_mul, sub_mul, hC']
          linarith
        exact le_of_mul_le_mul_right this hQ
      have t := norm2_add_le (fun i => v i - C * q i) (fun i => (C - f) * q i)
      rw [show (fun i => v i - C * q i + (C - f) * q i) = fun i => v i - f * q i from funext fun i => by ring] at t
      linarith
    have t := norm2_add_le (fun i => msub (v i) f (q i) - (v i - f * q i)) (fun i => v i - f * q i)
    rw [show (fun i => msub (v i) f (q i) - (v i - f * q i) + (v i - f * q i)) = fun i => msub (v i) f (q i) from funext fun i => by ring] at t
    have : 0 ≤ ((1 + u) ^ (n + 2) - 1) * norm2 v := mul_nonneg (by linarith) hV
    linarith

/-- The inner loop. -/
theorem gsInner_err (h : Rounding fl u) {msub : ℝ → ℝ → ℝ → ℝ} (hms : IsMulSub fl msub) {dot : (Fin n → ℝ) → (Fin n → ℝ) → ℝ} (hd : IsDot u n dot)
    {norm : (Fin n → ℝ) → Fin n → ℝ} {k : ℕ} (hn : IsNormalize u k norm) (hn1 : 1 ≤ n) (hg : (1 + u) ^ (n + 2) - 1 ≤ 1 / 1000) {ε : ℝ}
    (hε : ε = 5 * ((1 + u) ^ (n + 2) - 1)) : ∀ (us : List (Fin n → ℝ)) (v w : Fin n → ℝ), gsInner fl msub dot norm us v = some w →
    norm2 w ≤ (1 + ε) ^ us.length * norm2 v ∧
    (∃ f : Fin us.length → ℝ, norm2 (fun i => v i - (w i + ∑ j, f j * us.get j i)) ≤ ((1 + ε) ^ us.length - 1) * norm2 v ∧
      ∀ j, |f j| * norm2 (us.get j) ≤ (1 + ε) ^ us.length * norm2 v) ∧
    ∀ l q l', us = l ++ q :: l' → |∑ i, q i * w i| ≤ norm2 v * (((1 + ε) ^ us.length - 1) * norm2 q +
      (1 + ε) ^ us.length * (l'.map fun p => |∑ i, q i * p i| / norm2 p).sum) := by
  have he0 : 0 ≤ ε := by rw [hε]; linarith [one_le_growth h (n + 2)]
  intro us
  induction us with
  | nil =>
    intro v w hw
    simp only [gsInner, Option.some.injEq] at hw
    subst hw
    refine ⟨by simp, ⟨fun j => 0, ?_, fun j => j.elim0⟩, fun l q l' e => by simp at e⟩
    simp [norm2_zero]
  | cons q us ih =>
    intro v w hw
    simp only [gsInner, Option.bind_eq_some_iff] at hw
    obtain ⟨f, hf, hw⟩ := hw
    obtain ⟨s1, s2, s3, s4⟩ := gsStep_err h hms hd hn hn1 hg hf
    rw [← hε] at s1 s2 s3 s4
    generalize hv1 : (fun i => msub (v i) f (q i)) = v1 at *
    have hv1' : ∀ i, msub (v i) f (q i) = v1 i := fun i => congrFun hv1 i
    simp only [hv1'] at s1 s4
    obtain ⟨i1, ⟨g, i2, i3⟩, i4⟩ := ih v1 w hw
    have hV := norm2_nonneg v
    have hV1 := norm2_nonneg v1
    have hp1 : 1 ≤ (1 + ε) ^ us.length := one_le_pow₀ (by linarith)
    have hlen : (q :: us).length = us.length + 1 := rfl
    refine ⟨?_, ⟨Fin.cons f g, ?_, ?_⟩, ?_⟩
    · rw [hlen, pow_succ, mul_assoc]
      exact i1.trans (mul_le_mul_of_nonneg_left s3 (by linarith))
    · have t := norm2_add_le (fun i => v i - (v1 i + f * q i)) (fun i => v1 i - (w i + ∑ j, g j * us.get j i))
      rw [show (fun i => v i - (v1 i + f * q i) + (v1 i - (w i + ∑ j, g j * us.get j i))) = fun i => v i -
        (w i + ∑ j : Fin (us.length + 1), (Fin.cons f g : Fin (us.length + 1) → ℝ) j * (q :: us).get j i) from funext fun i => by
          rw [Fin.sum_univ_succ]
          simp only [Fin.cons_zero, Fin.cons_succ, List.get_cons_zero, List.get_cons_succ']
          ring] at t
      refine t.trans ?_
      have := mul_le_mul_of_nonneg_left s3 (by linarith : 0 ≤ (1 + ε) ^ us.length - 1)
      rw [hlen, pow_succ]
      linarith
    · intro j
      refine Fin.cases ?_ (fun j => ?_) j
      · refine s2.trans (mul_le_mul_of_nonneg_right ?_ hV)
        rw [hlen, pow_succ]
        nlinarith
      · refine (i3 j).trans ?_
        rw [hlen, pow_succ, mul_assoc]
        exact mul_le_mul_of_nonneg_left s3 (by linarith)
    · intro l q' l' e
      rw [hlen, pow_succ]
      cases l with
      | nil =>
        simp only [List.nil_append, List.cons.injEq] at e
        obtain ⟨rfl, rfl⟩ := e
        -- the projection on `q` itself
        have hQ := norm2_nonneg q
        have d1 := dot_abs_le q (fun i => v1 i - (w i + ∑ j, g j * us.get j i))
        have d2 : ∑ i, q i * (v1 i - (w i + ∑ j, g j * us.get j i)) = ∑ i, q i * v1 i - ∑ i, q i * w i - ∑ j, g j * ∑ i, q i * us.get j i := by
          simp only [mul_sub, mul_add, Finset.sum_sub_distrib, Finset.sum_add_distrib, Finset.mul_sum]
          rw [Finset.sum_comm (s := Finset.univ) (t := Finset.univ) (f := fun i j => q i * (g j * us.get j i))]
          rw [sub_sub]
          congr 2
          exact Finset.sum_congr rfl fun j _ => Finset.sum_congr rfl fun i _ => by ring
        rw [d2] at d1
        have d3 : |∑ j, g j * ∑ i, q i * us.get j i| ≤ (1 + ε) ^ us.length * norm2 v1 * (us.map fun p => |∑ i, q i * p i| / norm2 p).sum := by
          rw [← Fin.sum_univ_fun_getElem, Finset.mul_sum]
          refine (Finset.abs_sum_le_sum_abs _ _).trans (Finset.sum_le_sum fun j _ => ?_)
          have hj := i3 j
          rw [List.get_eq_getElem] at hj ⊢
          rw [abs_mul]
          generalize us[(j : ℕ)] = p at *
          rcases (norm2_nonneg p).eq_or_lt with hp | hp
          · have := dot_abs_le q p
            rw [← hp, mul_zero] at this
            rw [le_antisymm this (abs_nonneg _)]
            simp
          · rw [show |g j| * |∑ i, q i * p i| = (|g j| * norm2 p) * (|∑ i, q i * p i| / norm2 p) by field_simp]
            exact mul_le_mul_of_nonneg_right hj (div_nonneg (abs_nonneg _) hp.le)
        have hs : 0 ≤ (us.map fun p => |∑ i, q i * p i| / norm2 p).sum :=
          List.sum_nonneg fun x hx => by
            obtain ⟨p, -, rfl⟩ := List.mem_map.1 hx
            exact div_nonneg (abs_nonneg _) (norm2_nonneg _)
        generalize (us.map fun p => |∑ i, q i * p i| / norm2 p).sum = S at *
        have d4 : |∑ i, q i * w i| ≤ |∑ i, q i * v1 i| + |∑ j, g j * ∑ i, q i * us.get j i| +
            |∑ i, q i * v1 i - ∑ i, q i * w i - ∑ j, g j * ∑ i, q i * us.get j i| := by
          generalize ∑ i, q i * v1 i = A
          generalize ∑ i, q i * w i = B
          generalize ∑ j, g j * ∑ i, q i * us.get j i = C
          rcases abs_cases A with a | a <;> rcases abs_cases B with b | b <;> rcases abs_cases C with c | c <;>
            rcases abs_cases (A - B - C) with d | d <;> linarith
        have d5 := mul_le_mul_of_nonneg_left i2 hQ
        have d6 := mul_le_mul_of_nonneg_left s3 (mul_nonneg hQ (by linarith : 0 ≤ (1 + ε) ^ us.length - 1))
        have d7 := mul_le_mul_of_nonneg_left s3 (mul_nonneg (by linarith : 0 ≤ (1 + ε) ^ us.length) hs)
        generalize (1 + ε) ^ us.length = E at *
        nlinarith
      | cons a l =>
        simp only [List.cons_append, List.cons.injEq] at e
        obtain ⟨rfl, e⟩ := e
        have k := i4 l q' l' e
        have hQ := norm2_nonneg q'
        have hs : 0 ≤ (l'.map fun p => |∑ i, q' i * p i| / norm2 p).sum :=
          List.sum_nonneg fun x hx => by
            obtain ⟨p, -, rfl⟩ := List.mem_map.1 hx
            exact div_nonneg (abs_nonneg _) (norm2_nonneg _)
        refine k.trans ?_
        generalize (l'.map fun p => |∑ i, q' i * p i| / norm2 p).sum = S at *
        have b0 : 0 ≤ ((1 + ε) ^ us.length - 1) * norm2 q' + (1 + ε) ^ us.length * S :=
          add_nonneg (mul_nonneg (by linarith) hQ) (mul_nonneg (by linarith) hs)
        refine (mul_le_mul_of_nonneg_right s3 b0).trans ?_
        rw [mul_comm (1 + ε), mul_assoc]
        refine mul_le_mul_of_nonneg_left ?_ hV
        nlinarith

/-- A single-precision float near 1 is a multiple of `2^-24`, and not the number halfway between 1 and its successor. -/
theorem float_near_one {x : ℝ} (hx : IsFloat 24 x) (h1 : 3 / 4 ≤ x) (h2 : x ≤ 5 / 4) : ∃ N : ℤ, x = N / 2 ^ 24 ∧ N ≠ 2 ^ 24 + 1 := by
  obtain ⟨m, e, rfl, hm⟩ := hx
  have he : -24 ≤ e := by
    by_contra hc
    have hc : e ≤ -25 := by omega
    have : (2 : ℝ) ^ e ≤ 2 ^ (-25 : ℤ) := zpow_le_zpow_right₀ (by norm_num) hc
    have hm' : (m : ℝ) ≤ 2 ^ 24 := by exact_mod_cast (le_abs_self m).trans hm.le
    have hp : (0 : ℝ) < 2 ^ e := by positivity
    have : (m : ℝ) * 2 ^ e ≤ 2 ^ 24 * 2 ^ (-25 : ℤ) := (mul_le_mul_of_nonneg_right hm' hp.le).trans (by gcongr)
    norm_num at this
    linarith
  obtain ⟨k, hk⟩ := Int.le.dest he
  obtain rfl : e = (k : ℤ) - 24 := by omega
  have e1 : (m : ℝ) * 2 ^ ((k : ℤ) - 24) = ((m * 2 ^ k : ℤ) : ℝ) / 2 ^ 24 := by
    rw [zpow_sub₀ (by norm_num), zpow_natCast]
    push_cast
    rw [mul_div_assoc]
    norm_cast
  refine ⟨m * 2 ^ k, e1, fun hc => ?_⟩
  cases k with
  | zero => rw [pow_zero, mul_one] at hc; rw [hc] at hm; norm_num at hm
  | succ k =>
    rw [pow_succ, ← mul_assoc] at hc
    omega

end Mathter.Fl
