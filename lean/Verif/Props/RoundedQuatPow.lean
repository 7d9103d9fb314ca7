import Verif.Props.RoundedQuatExp

/-!
# Property C135: rounding of `Pow` away from the identity
-/

namespace Mathter.Props
open Mathter
open scoped Quaternion
variable {l : QLayout} {fl : ℝ → ℝ} {u e : ℝ} {p : ℕ} {L : Fl.CMath} {len : (Fin 3 → ℝ) → ℝ} {norm : (Fin 3 → ℝ) → Fin 3 → ℝ}

/-- The vector part of the exponential of `w` and of `t n`. -/
private theorem sinc_move {w n : Fin 3 → ℝ} {t : ℝ} (hn : norm2 n = 1) :
    norm2 (fun i => w i / norm2 w * Real.sin (norm2 w) - n i * Real.sin t) ≤ 3 * norm2 (fun i => w i - n i * t) ∧
    |Real.cos (norm2 w) - Real.cos t| ≤ norm2 (fun i => w i - n i * t) := by
  set d := norm2 (fun i => w i - n i * t) with hd
  have ht : norm2 (fun i => n i * t) = |t| := by
    rw [show (fun i => n i * t) = fun i => t * n i from funext fun i => mul_comm _ _, norm2_smul, hn, mul_one]
  have hx : |norm2 w - abs t| ≤ d := by rw [← ht]; exact norm2_sub_le w fun i => n i * t
  have x0 := norm2_nonneg w
  constructor
  · rcases x0.eq_or_lt with h0 | h0
    · have hw : w = 0 := by
        by_contra hc
        exact (Fl.norm2_pos hc).ne h0
      have e1 : (fun i => w i / norm2 w * Real.sin (norm2 w) - n i * Real.sin t) = fun i => -Real.sin t * n i := by
        funext i; rw [hw]; simp only [Pi.zero_apply, zero_div, zero_mul]; ring
      rw [e1, norm2_smul, hn, mul_one, abs_neg]
      have := Real.abs_sin_le_abs (x := t)
      rw [← h0, zero_sub, abs_neg, abs_abs] at hx
      have := abs_nonneg t
      linarith
    · set x := norm2 w with hxdef
      have e1 : (fun i => w i / x * Real.sin x - n i * Real.sin t) = fun i => Real.sin x / x * (w i - n i * t) + (t * (Real.sin x / x) - Real.sin t) * n i := by
        funext i; field_simp; ring
      rw [e1]
      refine (norm2_add_le _ _).trans ?_
      rw [norm2_smul, norm2_smul, hn, mul_one, ← hd]
      have s1 : |Real.sin x / x| ≤ 1 := by
        rw [abs_div, abs_of_pos h0, div_le_one h0]
        have := Real.abs_sin_le_abs (x := x)
        rwa [abs_of_pos h0] at this
      have s2 : |t * (Real.sin x / x) - Real.sin t| = |abs t * (Real.sin x / x) - Real.sin (abs t)| := by
        rcases abs_cases t with ⟨h, _⟩ | ⟨h, _⟩
        · rw [h]
        · rw [h, Real.sin_neg, ← abs_neg]; congr 1; ring
      have s3 : |t| * (Real.sin x / x) - Real.sin |t| = (|t| - x) * (Real.sin x / x) + (Real.sin x - Real.sin |t|) := by field_simp; ring
      have s4 : |(abs t - x) * (Real.sin x / x)| ≤ |x - abs t| := by
        rw [abs_mul, abs_sub_comm]
        exact mul_le_of_le_one_right (abs_nonneg _) s1
      have s5 : |Real.sin x - Real.sin (abs t)| ≤ |x - abs t| := Real.abs_sin_sub_sin_le _ _
      have s6 := abs_add_le ((|t| - x) * (Real.sin x / x)) (Real.sin x - Real.sin |t|)
      have d0 : 0 ≤ d := norm2_nonneg _
      have s7 := mul_le_of_le_one_left d0 s1
      rw [s2, s3]
      linarith
  · rw [← Real.cos_abs t]
    exact (Real.abs_cos_sub_cos_le _ _).trans hx

/-- The exponential of two real numbers that are close. -/
private theorem exp_move {x y E : ℝ} (h : |x - y| ≤ E) (hE : E ≤ 0.55) : |Real.exp x - Real.exp y| ≤ 2 * E * Real.exp y ∧ Real.exp x ≤ 2.1 * Real.exp y := by
  have hy := Real.exp_pos y
  have e1 : Real.exp x - Real.exp y = (Real.exp (x - y) - 1) * Real.exp y := by rw [sub_mul, ← Real.exp_add]; congr 2 <;> ring
  have b : |Real.exp x - Real.exp y| ≤ 2 * E * Real.exp y := by
    rw [e1, abs_mul, abs_of_pos hy]
    refine mul_le_mul_of_nonneg_right ((Real.abs_exp_sub_one_le (by linarith)).trans (by linarith)) hy.le
  refine ⟨b, ?_⟩
  have := (abs_le.1 b).2
  nlinarith

private theorem arith_s {u e γ G : ℝ} (hu : 0 ≤ u) (g6 : 6 * u ≤ γ) (hγ : γ ≤ 1 / 1000) (he0 : 0 ≤ e) (hG : 0 ≤ G) :
    u * (G + (e * G + 2 * (γ + e))) + (e * G + 2 * (γ + e)) ≤ 1.1 * ((γ + e) * (G + 2)) := by
  have a : u * (e * G) ≤ 1 / 1000 * (e * G) := mul_le_mul_of_nonneg_right (by linarith) (by positivity)
  have b : u * (2 * (γ + e)) ≤ 1 / 1000 * (2 * (γ + e)) := mul_le_mul_of_nonneg_right (by linarith) (by linarith)
  have c : 6 * u * G ≤ γ * G := mul_le_mul_of_nonneg_right g6 hG
  have d := mul_nonneg he0 hG
  have f : 0 ≤ γ * G := mul_nonneg (by linarith) hG
  linarith

/-- `a * Log(q)`: the scalar part, ... -/
private theorem scaled_s (h : Rounding fl u) (hg : (1 + u) ^ 6 - 1 ≤ 1 / 1000) (he0 : 0 ≤ e) {x G a : ℝ}
    (h1 : |x - G| ≤ e * |G| + 2 * ((1 + u) ^ 6 - 1 + e)) : |fl (a * x) - a * G| ≤ 1.1 * (|a| * ((1 + u) ^ 6 - 1 + e) * (|G| + 2)) := by
  have hu0 := h.u_nonneg
  have g6 : 6 * u ≤ (1 + u) ^ 6 - 1 := by
    have := one_add_mul_le_pow (show (-2 : ℝ) ≤ u by linarith) 6
    push_cast at this; linarith
  have A0 := abs_nonneg a
  have G0 := abs_nonneg G
  have r := h.err (a * x)
  rw [abs_mul] at r
  have b : |x| ≤ |G| + (e * |G| + 2 * ((1 + u) ^ 6 - 1 + e)) := by
    have := abs_sub_abs_le_abs_sub x G
    linarith
  have t := abs_sub_le (fl (a * x)) (a * x) (a * G)
  rw [← mul_sub a, abs_mul] at t
  have c := mul_le_mul_of_nonneg_left h1 A0
  have d : u * (|a| * |x|) ≤ |a| * (u * (|G| + (e * |G| + 2 * ((1 + u) ^ 6 - 1 + e)))) := by
    rw [mul_left_comm]; gcongr
  have f := mul_le_mul_of_nonneg_left (arith_s hu0 g6 hg he0 G0) A0
  rw [mul_add] at f
  linarith

/-- ... and the vector part. -/
private theorem scaled_v (h : Rounding fl u) (hg : (1 + u) ^ 6 - 1 ≤ 1 / 1000) {w n : Fin 3 → ℝ} {θ D a : ℝ} (hn1 : norm2 n = 1) (hθ0 : 0 ≤ θ)
    (hθ : θ ≤ 3.15) (hD0 : 0 ≤ D) (hD : D ≤ 0.2) (h2 : norm2 (fun i => w i - n i * θ) ≤ D) :
    norm2 (fun i => fl (a * w i) - n i * (a * θ)) ≤ |a| * (1.001 * D + 0.6 * ((1 + u) ^ 6 - 1)) ∧ norm2 (fun i => fl (a * w i)) ≤ 3.4 * |a| := by
  have hu0 := h.u_nonneg
  have g6 : 6 * u ≤ (1 + u) ^ 6 - 1 := by
    have := one_add_mul_le_pow (show (-2 : ℝ) ≤ u by linarith) 6
    push_cast at this; linarith
  have A0 := abs_nonneg a
  have sc : ∀ t, norm2 (fun i => n i * t) = |t| := fun t => by
    rw [show (fun i => n i * t) = fun i => t * n i from funext fun i => mul_comm _ _, norm2_smul, hn1, mul_one]
  have r : norm2 (fun i => fl (a * w i) - a * w i) ≤ u * (|a| * norm2 w) := by
    rw [← norm2_smul]
    exact norm2_le_mul hu0 fun i => h.err (a * w i)
  have b : norm2 w ≤ θ + D := by
    have := (abs_le.1 (norm2_sub_le w fun i => n i * θ)).2
    rw [sc, abs_of_nonneg hθ0] at this
    linarith
  have V : norm2 (fun i => fl (a * w i) - n i * (a * θ)) ≤ |a| * (1.001 * D + 0.6 * ((1 + u) ^ 6 - 1)) := by
    have e1 : (fun i => fl (a * w i) - n i * (a * θ)) = fun i => (fl (a * w i) - a * w i) + a * (w i - n i * θ) := funext fun i => by ring
    rw [e1]
    refine (norm2_add_le _ _).trans ?_
    rw [norm2_smul]
    have c := mul_le_mul_of_nonneg_left h2 A0
    have d : u * (|a| * norm2 w) ≤ |a| * (u * (3.15 + D)) := by
      rw [mul_left_comm]; gcongr; linarith
    have f : u * (3.15 + D) + D ≤ 1.001 * D + 0.6 * ((1 + u) ^ 6 - 1) := by
      have : u * D ≤ 1 / 1000 * D := mul_le_mul_of_nonneg_right (by linarith) hD0
      linarith
    have := mul_le_mul_of_nonneg_left f A0
    rw [mul_add] at this
    linarith
  refine ⟨V, ?_⟩
  have := (abs_le.1 (norm2_sub_le (fun i => fl (a * w i)) fun i => n i * (a * θ))).2
  rw [sc, abs_mul, abs_of_nonneg hθ0] at this
  have c : θ + (1.001 * D + 0.6 * ((1 + u) ^ 6 - 1)) ≤ 3.4 := by linarith
  have := mul_le_mul_of_nonneg_left c A0
  rw [mul_add] at this
  linarith

private theorem arith_p {κ A G D : ℝ} (hκ : 0 ≤ κ) (hA : 0 ≤ A) (hG : 0 ≤ G) (hD : 0 ≤ D) :
    (3 * κ + 7 * (A * κ)) * 2.1 + 2 * (1.1 * (A * κ * (G + 2))) + A * (1.001 * D + 0.6 * κ) ≤ 7 * κ + A * (κ * (36 + 3 * G) + 4 * D) ∧
    14 * (A * κ) * 2.1 + 2 * (1.1 * (A * κ * (G + 2))) + 3 * (A * (1.001 * D + 0.6 * κ)) ≤ 7 * κ + A * (κ * (36 + 3 * G) + 4 * D) := by
  have a : 0 ≤ A * κ := mul_nonneg hA hκ
  have b : 0 ≤ A * κ * G := mul_nonneg a hG
  have d : 0 ≤ A * D := mul_nonneg hA hD
  constructor <;> linarith

/-- The error of the logarithm of `q` carries over to the power. -/
private theorem pow_core (h : Rounding fl u) (hL : L.Accurate p e) (hlen : ∀ v, |len v - norm2 v| ≤ ((1 + u) ^ 6 - 1) * norm2 v) (hn : Fl.IsNormalize u 5 norm)
    (hg : (1 + u) ^ 6 - 1 ≤ 1 / 1000) (he0 : 0 ≤ e) (he : e ≤ 1 / 1000) {y : Quat ℝ l} {n w : Fin 3 → ℝ} {x G θ D a : ℝ} (hn1 : norm2 n = 1) (hθ0 : 0 ≤ θ)
    (hθ : θ ≤ 3.15) (hD0 : 0 ≤ D) (hD : D ≤ 0.2) (hys : y.s = fl (a * x)) (hyv : y.vec = fun i => fl (a * w i))
    (h1 : |x - G| ≤ e * |G| + 2 * ((1 + u) ^ 6 - 1 + e)) (h2 : norm2 (fun i => w i - n i * θ) ≤ D)
    (ha : |a| * ((1 + u) ^ 6 - 1 + e) * (|G| + 2) ≤ 1 / 2) {B : ℝ}
    (hB : B = 7 * ((1 + u) ^ 6 - 1 + e) + |a| * (((1 + u) ^ 6 - 1 + e) * (36 + 3 * |G|) + 4 * D)) :
    |(Fl.qexp fl L len norm y).s - Real.exp (a * G) * Real.cos (a * θ)| ≤ B * Real.exp (a * G) ∧
    norm2 (fun i => (Fl.qexp fl L len norm y).vec i - n i * (Real.exp (a * G) * Real.sin (a * θ))) ≤ B * Real.exp (a * G) := by
  have hu0 := h.u_nonneg
  have g6 : 6 * u ≤ (1 + u) ^ 6 - 1 := by
    have := one_add_mul_le_pow (show (-2 : ℝ) ≤ u by linarith) 6
    push_cast at this; linarith
  obtain ⟨X1, X2⟩ := C135_exp h hL hlen hn hg he0 he y
  have A0 := abs_nonneg a
  have S := scaled_s h hg he0 (a := a) h1
  rw [← hys] at S
  obtain ⟨E1, E2⟩ := exp_move S (by linarith)
  obtain ⟨V, W⟩ := scaled_v h hg (a := a) hn1 hθ0 hθ hD0 hD h2
  obtain ⟨V1, V2⟩ := sinc_move (w := y.vec) (t := a * θ) hn1
  have ey : (fun i => fl (a * w i) - n i * (a * θ)) = fun i => y.vec i - n i * (a * θ) := by rw [hyv]
  rw [ey] at V
  rw [← hyv] at W
  clear ey hyv hys S h1 h2
  have R0 : 0 < Real.exp (a * G) := Real.exp_pos _
  generalize Real.exp (a * G) = R at *
  have W0 := norm2_nonneg y.vec
  have κ0 : 0 ≤ (1 + u) ^ 6 - 1 + e := by linarith
  have hle : (1 + u) ^ 6 - 1 ≤ (1 + u) ^ 6 - 1 + e := by linarith
  have c1 : 2 * ((1 + u) ^ 6 - 1) * (1 + norm2 y.vec) + 3 * e ≤ 3 * ((1 + u) ^ 6 - 1 + e) + 7 * (|a| * ((1 + u) ^ 6 - 1 + e)) := by
    have t1 : ((1 + u) ^ 6 - 1) * norm2 y.vec ≤ ((1 + u) ^ 6 - 1 + e) * (3.4 * |a|) := mul_le_mul hle W W0 κ0
    have t2 : 0 ≤ |a| * ((1 + u) ^ 6 - 1 + e) := mul_nonneg A0 κ0
    linarith
  have V' : norm2 (fun i => y.vec i - n i * (a * θ)) ≤ |a| * (1.001 * D + 0.6 * ((1 + u) ^ 6 - 1 + e)) := V.trans (mul_le_mul_of_nonneg_left (by linarith) A0)
  obtain ⟨P1, P2⟩ := arith_p κ0 A0 (abs_nonneg G) hD0
  rw [← hB] at P1 P2
  clear hB hle hlen hn hL
  generalize (1 + u) ^ 6 - 1 + e = κ at *
  have κa : 0 ≤ |a| * κ := mul_nonneg A0 κ0
  have Y0 := Real.exp_pos y.s
  constructor
  · have t1 : |Real.exp y.s * Real.cos (norm2 y.vec) - R * Real.cos (a * θ)| ≤ 2 * (1.1 * (|a| * κ * (|G| + 2))) * R + R * (|a| * (1.001 * D + 0.6 * κ)) := by
      have e1 : Real.exp y.s * Real.cos (norm2 y.vec) - R * Real.cos (a * θ) =
          (Real.exp y.s - R) * Real.cos (norm2 y.vec) + R * (Real.cos (norm2 y.vec) - Real.cos (a * θ)) := by ring
      rw [e1]
      refine (abs_add_le _ _).trans (add_le_add ?_ ?_)
      · rw [abs_mul]
        exact (mul_le_of_le_one_right (abs_nonneg _) (Real.abs_cos_le_one _)).trans E1
      · rw [abs_mul, abs_of_pos R0]
        exact mul_le_mul_of_nonneg_left (V2.trans V') R0.le
    have t2 := mul_le_mul c1 E2 Y0.le (by positivity)
    have t3 := abs_sub_le (Fl.qexp fl L len norm y).s (Real.exp y.s * Real.cos (norm2 y.vec)) (R * Real.cos (a * θ))
    refine t3.trans ((add_le_add (X1.trans t2) t1).trans ?_)
    have := mul_le_mul_of_nonneg_right P1 R0.le
    linarith
  · have t1 : norm2 (fun i => Real.exp y.s * (y.vec i / norm2 y.vec * Real.sin (norm2 y.vec)) - n i * (R * Real.sin (a * θ))) ≤
        2 * (1.1 * (|a| * κ * (|G| + 2))) * R + R * (3 * (|a| * (1.001 * D + 0.6 * κ))) := by
      have e1 : (fun i => Real.exp y.s * (y.vec i / norm2 y.vec * Real.sin (norm2 y.vec)) - n i * (R * Real.sin (a * θ))) =
          fun i => (Real.exp y.s - R) * (y.vec i / norm2 y.vec * Real.sin (norm2 y.vec)) +
            R * (y.vec i / norm2 y.vec * Real.sin (norm2 y.vec) - n i * Real.sin (a * θ)) := funext fun i => by ring
      rw [e1]
      refine (norm2_add_le _ _).trans (add_le_add ?_ ?_)
      · rw [norm2_smul]
        refine (mul_le_of_le_one_right (abs_nonneg _) ?_).trans E1
        rw [show (fun i => y.vec i / norm2 y.vec * Real.sin (norm2 y.vec)) = fun i => Real.sin (norm2 y.vec) / norm2 y.vec * y.vec i from
          funext fun i => by ring, norm2_smul]
        rcases W0.eq_or_lt with w0 | w0
        · rw [← w0, mul_zero]; norm_num
        · rw [abs_div, abs_of_pos w0, div_mul_cancel₀ _ w0.ne']
          exact Real.abs_sin_le_one _
      · rw [norm2_smul, abs_of_pos R0]
        exact mul_le_mul_of_nonneg_left (V1.trans (mul_le_mul_of_nonneg_left V' (by norm_num))) R0.le
    have t2 : 4 * κ * (norm2 y.vec * Real.exp y.s) ≤ 14 * (|a| * κ) * (2.1 * R) := by
      rw [← mul_assoc]
      refine mul_le_mul ?_ E2 Y0.le (by positivity)
      have := mul_le_mul_of_nonneg_left W κ0
      linarith
    have t3 : norm2 (fun i => (Fl.qexp fl L len norm y).vec i - n i * (R * Real.sin (a * θ))) ≤
        norm2 (fun i => (Fl.qexp fl L len norm y).vec i - Real.exp y.s * (y.vec i / norm2 y.vec * Real.sin (norm2 y.vec))) +
        norm2 (fun i => Real.exp y.s * (y.vec i / norm2 y.vec * Real.sin (norm2 y.vec)) - n i * (R * Real.sin (a * θ))) := by
      refine le_trans (le_of_eq ?_) (norm2_add_le _ _)
      congr 1; funext i; ring
    refine t3.trans ((add_le_add (X2.trans t2) t1).trans ?_)
    have := mul_le_mul_of_nonneg_right P2 R0.le
    linarith

/-- C135, `Pow` (partial: the error grows with `|q| / |v|`, or is bounded by a square root close to the real numbers, see `C135_pow_violated`). The power of
`s + v` is `|q|^a (cos(a θ) + sin(a θ) v / |v|)` with `θ = arccos(s / |q|)`, see `C135_polar` and `C49_pow`. -/
theorem C135_pow_partial (hp : 1 ≤ p) (hfl : RoundsToNearest p fl) (hu : u = 2 ^ (-(p : ℤ))) (hL : L.Accurate p e)
    (hlen : ∀ v, |len v - norm2 v| ≤ ((1 + u) ^ 6 - 1) * norm2 v) (hn : Fl.IsNormalize u 5 norm) (hg : (1 + u) ^ 6 - 1 ≤ 1 / 1000) (he0 : 0 ≤ e)
    (he : e ≤ 1 / 1000) (q : Quat ℝ l) (hs : IsFloat p q.s) (hv : q.vec ≠ 0) {r : ℝ} (hr : r = Real.sqrt (q.s ^ 2 + norm2 q.vec ^ 2)) (a : ℝ)
    (ha : |a| * ((1 + u) ^ 6 - 1 + e) * (|Real.log r| + 2) ≤ 1 / 2) {B : ℝ}
    (hB : B = 7 * ((1 + u) ^ 6 - 1 + e) + |a| * (((1 + u) ^ 6 - 1 + e) * (36 + 3 * |Real.log r|) +
      4 * min (11 * ((1 + u) ^ 6 - 1 + e) * (r / norm2 q.vec)) (4 * Real.sqrt ((1 + u) ^ 6 - 1 + e)))) :
    ∃ x, Fl.qpow fl L len norm q a = some x ∧ |x.s - r ^ a * Real.cos (a * Real.arccos (q.s / r))| ≤ B * r ^ a ∧
      norm2 (fun i => x.vec i - q.vec i / norm2 q.vec * (r ^ a * Real.sin (a * Real.arccos (q.s / r)))) ≤ B * r ^ a := by
  have h : Rounding fl u := hu ▸ hfl.rounding hp
  have hu0 := h.u_nonneg
  have nz := Fl.norm2_pos hv
  have hr0 : 0 < r := by rw [hr]; exact Real.sqrt_pos.2 (by positivity)
  obtain ⟨g, hg1, hg2, -, hg3⟩ := C135_log_partial hp hfl hu hL hlen hn hg he0 he q hs hr hr0
  obtain ⟨m1, m2⟩ := hg3 hv
  have g6 : 6 * u ≤ (1 + u) ^ 6 - 1 := by
    have := one_add_mul_le_pow (show (-2 : ℝ) ≤ u by linarith) 6
    push_cast at this; linarith
  have hb : norm2 (fun i => q.vec i / norm2 q.vec) = 1 := by
    rw [show (fun i => q.vec i / norm2 q.vec) = fun i => (norm2 q.vec)⁻¹ * q.vec i from funext fun i => by rw [div_eq_inv_mul], norm2_smul,
      abs_of_pos (inv_pos.2 nz), inv_mul_cancel₀ nz.ne']
  have κ0 : 0 ≤ (1 + u) ^ 6 - 1 + e := by linarith
  have pi2 := Real.pi_lt_d2
  have th := Real.arccos_le_pi (q.s / r)
  have sq : Real.sqrt ((1 + u) ^ 6 - 1 + e) ≤ 0.05 := by
    rw [Real.sqrt_le_left (by norm_num)]
    norm_num at hg he ⊢
    linarith
  have D0 : 0 ≤ min (11 * ((1 + u) ^ 6 - 1 + e) * (r / norm2 q.vec)) (4 * Real.sqrt ((1 + u) ^ 6 - 1 + e)) := le_min (by positivity) (by positivity)
  have D1 : min (11 * ((1 + u) ^ 6 - 1 + e) * (r / norm2 q.vec)) (4 * Real.sqrt ((1 + u) ^ 6 - 1 + e)) ≤ 0.2 := (min_le_right _ _).trans (by linarith)
  have R : Real.exp (a * Real.log r) = r ^ a := by rw [Real.rpow_def_of_pos hr0, mul_comm]
  have key := pow_core h hL hlen hn hg he0 he (y := (⟨fun t => fl (a * g.elements t)⟩ : Quat ℝ l)) (w := g.vec) (x := g.s) (G := Real.log r)
    (a := a) hb (Real.arccos_nonneg (q.s / r)) (by linarith) D0 D1 rfl (by funext i; rfl) hg2 (le_min m1 m2) ha hB
  rw [R] at key
  refine ⟨_, ?_, key⟩
  unfold Fl.qpow
  rw [hg1]
  rfl

/-- The quaternion with length `r^a`, angle `a θ` and axis `n`. -/
private noncomputable def polar (r θ : ℝ) (n : Fin 3 → ℝ) (a : ℝ) : ℍ[ℝ] :=
  ⟨r ^ a * Real.cos (a * θ), n 0 * (r ^ a * Real.sin (a * θ)), n 1 * (r ^ a * Real.sin (a * θ)), n 2 * (r ^ a * Real.sin (a * θ))⟩

private theorem polar_mul {r θ a b : ℝ} {n : Fin 3 → ℝ} (hr : 0 < r) (hn : n 0 ^ 2 + n 1 ^ 2 + n 2 ^ 2 = 1) : polar r θ n a * polar r θ n b = polar r θ n (a + b) := by
  have e1 : r ^ (a + b) = r ^ a * r ^ b := Real.rpow_add hr a b
  have e2 : Real.cos ((a + b) * θ) = Real.cos (a * θ) * Real.cos (b * θ) - Real.sin (a * θ) * Real.sin (b * θ) := by rw [add_mul, Real.cos_add]
  have e3 : Real.sin ((a + b) * θ) = Real.sin (a * θ) * Real.cos (b * θ) + Real.cos (a * θ) * Real.sin (b * θ) := by rw [add_mul, Real.sin_add]
  have hn' : n 0 ^ 2 = 1 - n 1 ^ 2 - n 2 ^ 2 := by linarith
  apply QuaternionAlgebra.ext
  · rw [Quaternion.re_mul]; simp only [polar]; rw [e1, e2]; ring_nf; rw [hn']; ring
  · rw [Quaternion.imI_mul]; simp only [polar]; rw [e1, e3]; ring
  · rw [Quaternion.imJ_mul]; simp only [polar]; rw [e1, e3]; ring
  · rw [Quaternion.imK_mul]; simp only [polar]; rw [e1, e3]; ring

/-- C135: the exact powers with integer exponents in polar form. -/
theorem C135_polar (q : Quat ℝ l) (hv : q.vec ≠ 0) {r : ℝ} (hr : r = Real.sqrt (q.s ^ 2 + norm2 q.vec ^ 2)) (k : ℤ) :
    (q.toH ^ k).re = r ^ (k : ℝ) * Real.cos (k * Real.arccos (q.s / r)) ∧
    ![(q.toH ^ k).imI, (q.toH ^ k).imJ, (q.toH ^ k).imK] = fun i => q.vec i / norm2 q.vec * (r ^ (k : ℝ) * Real.sin (k * Real.arccos (q.s / r))) := by
  have nz := Fl.norm2_pos hv
  have hr0 : 0 < r := by rw [hr]; exact Real.sqrt_pos.2 (by positivity)
  have r2 : r ^ 2 = q.s ^ 2 + norm2 q.vec ^ 2 := by rw [hr, Real.sq_sqrt (by positivity)]
  have hsr : |q.s| ≤ r := by
    rw [hr]; exact Real.abs_le_sqrt (by nlinarith [sq_nonneg (norm2 q.vec)])
  have hx : |q.s / r| ≤ 1 := by rw [abs_div, abs_of_pos hr0, div_le_one hr0]; exact hsr
  obtain ⟨x1, x2⟩ := abs_le.1 hx
  have sn : Real.sin (Real.arccos (q.s / r)) = norm2 q.vec / r := by
    have e1 : 1 - (q.s / r) ^ 2 = (norm2 q.vec / r) ^ 2 := by
      rw [div_pow, div_pow, eq_div_iff (by positivity), sub_mul, div_mul_cancel₀ _ (by positivity), r2]; ring
    rw [Real.sin_arccos, e1, Real.sqrt_sq (by positivity)]
  have hn : (fun i => q.vec i / norm2 q.vec) 0 ^ 2 + (fun i => q.vec i / norm2 q.vec) 1 ^ 2 + (fun i => q.vec i / norm2 q.vec) 2 ^ 2 = 1 := by
    have := norm2_sq q.vec
    rw [Fin.sum_univ_three] at this
    simp only [div_pow]
    rw [← add_div, ← add_div, ← this, div_self (by positivity)]
  have one : q.toH = polar r (Real.arccos (q.s / r)) (fun i => q.vec i / norm2 q.vec) 1 := by
    have c : ∀ x : ℝ, x = x / norm2 q.vec * (r * (norm2 q.vec / r)) := fun x => by field_simp
    apply QuaternionAlgebra.ext
    · simp only [polar]; rw [Real.rpow_one, one_mul, Real.cos_arccos x1 x2, mul_div_cancel₀ _ hr0.ne']; rfl
    all_goals simp only [polar]; rw [Real.rpow_one, one_mul, sn, ← c]; rfl
  have zero : polar r (Real.arccos (q.s / r)) (fun i => q.vec i / norm2 q.vec) 0 = 1 := by
    apply QuaternionAlgebra.ext <;> simp [polar]
  have nat : ∀ m : ℕ, q.toH ^ m = polar r (Real.arccos (q.s / r)) (fun i => q.vec i / norm2 q.vec) m := fun m => by
    induction m with
    | zero => rw [pow_zero, Nat.cast_zero, zero]
    | succ m ih => rw [pow_succ, ih]; conv_lhs => rw [one]
                   rw [polar_mul hr0 hn]; push_cast; rfl
  have key : q.toH ^ k = polar r (Real.arccos (q.s / r)) (fun i => q.vec i / norm2 q.vec) k := by
    rcases Int.eq_nat_or_neg k with ⟨m, rfl | rfl⟩
    · rw [zpow_natCast, nat]; simp
    · rw [zpow_neg, zpow_natCast, nat, inv_eq_of_mul_eq_one_right]
      rw [polar_mul hr0 hn]
      push_cast
      rw [add_neg_cancel, zero]
  rw [key]
  refine ⟨rfl, ?_⟩
  funext i
  fin_cases i <;> rfl

/-- C135, `Pow` with an integer exponent: the error relative to the exact power in the quaternion algebra. -/
theorem C135_zpow_partial (hp : 1 ≤ p) (hfl : RoundsToNearest p fl) (hu : u = 2 ^ (-(p : ℤ))) (hL : L.Accurate p e)
    (hlen : ∀ v, |len v - norm2 v| ≤ ((1 + u) ^ 6 - 1) * norm2 v) (hn : Fl.IsNormalize u 5 norm) (hg : (1 + u) ^ 6 - 1 ≤ 1 / 1000) (he0 : 0 ≤ e)
    (he : e ≤ 1 / 1000) (q : Quat ℝ l) (hs : IsFloat p q.s) (hv : q.vec ≠ 0) (k : ℤ)
    (ha : |(k : ℝ)| * ((1 + u) ^ 6 - 1 + e) * (|Real.log ‖q.toH‖| + 2) ≤ 1 / 2) :
    ∃ x, Fl.qpow fl L len norm q k = some x ∧ ‖x.toH - q.toH ^ k‖ ≤
      2 * (7 * ((1 + u) ^ 6 - 1 + e) + |(k : ℝ)| * (((1 + u) ^ 6 - 1 + e) * (36 + 3 * |Real.log ‖q.toH‖|) +
        4 * min (11 * ((1 + u) ^ 6 - 1 + e) * (‖q.toH‖ / norm2 q.vec)) (4 * Real.sqrt ((1 + u) ^ 6 - 1 + e)))) * ‖q.toH ^ k‖ := by
  have hr : ‖q.toH‖ = Real.sqrt (q.s ^ 2 + norm2 q.vec ^ 2) := by
    rw [norm2_sq, Fin.sum_univ_three, ← Real.sqrt_mul_self (norm_nonneg q.toH), ← Quaternion.normSq_eq_norm_mul_self, Quaternion.normSq_def']
    congr 1
    change q.s ^ 2 + q.i ^ 2 + q.j ^ 2 + q.k ^ 2 = q.s ^ 2 + (q.i ^ 2 + q.j ^ 2 + q.k ^ 2)
    ring
  obtain ⟨x, hx, h1, h2⟩ := C135_pow_partial hp hfl hu hL hlen hn hg he0 he q hs hv hr k ha rfl
  refine ⟨x, hx, ?_⟩
  obtain ⟨p1, p2⟩ := C135_polar q hv hr k
  rw [← p1] at h1
  have p3 : (fun i => x.vec i - q.vec i / norm2 q.vec * (‖q.toH‖ ^ (k : ℝ) * Real.sin (k * Real.arccos (q.s / ‖q.toH‖)))) =
      fun i => x.vec i - ![(q.toH ^ k).imI, (q.toH ^ k).imJ, (q.toH ^ k).imK] i := by rw [p2]
  rw [p3] at h2
  rw [norm_zpow, ← Real.rpow_intCast]
  generalize (7 * ((1 + u) ^ 6 - 1 + e) + |(k : ℝ)| * (((1 + u) ^ 6 - 1 + e) * (36 + 3 * |Real.log ‖q.toH‖|) +
        4 * min (11 * ((1 + u) ^ 6 - 1 + e) * (‖q.toH‖ / norm2 q.vec)) (4 * Real.sqrt ((1 + u) ^ 6 - 1 + e)))) = B at *
  generalize ‖q.toH‖ ^ (k : ℝ) = R at *
  have c := (abs_nonneg _).trans h1
  have n : ‖x.toH - q.toH ^ k‖ ^ 2 = (x.s - (q.toH ^ k).re) ^ 2 + norm2 (fun i => x.vec i - ![(q.toH ^ k).imI, (q.toH ^ k).imJ, (q.toH ^ k).imK] i) ^ 2 := by
    rw [norm2_sq, Fin.sum_univ_three, sq, ← Quaternion.normSq_eq_norm_mul_self, Quaternion.normSq_def']
    change (x.s - (q.toH ^ k).re) ^ 2 + (x.i - (q.toH ^ k).imI) ^ 2 + (x.j - (q.toH ^ k).imJ) ^ 2 + (x.k - (q.toH ^ k).imK) ^ 2 =
      (x.s - (q.toH ^ k).re) ^ 2 + ((x.i - (q.toH ^ k).imI) ^ 2 + (x.j - (q.toH ^ k).imJ) ^ 2 + (x.k - (q.toH ^ k).imK) ^ 2)
    ring
  have n0 := norm2_nonneg fun i => x.vec i - ![(q.toH ^ k).imI, (q.toH ^ k).imJ, (q.toH ^ k).imK] i
  have s1 := sq_le_sq' (abs_le.1 h1).1 (abs_le.1 h1).2
  have s2 := pow_le_pow_left₀ n0 h2 2
  rw [mul_assoc]
  exact abs_le_of_sq_le_sq' (by nlinarith) (by linarith) |>.2

/-- The hundredth power of `3 + 4i` in single precision meets the hypotheses; for the others see the `example` of C135 for the functions of the library. -/
example : IsFloat 24 (Quat.ofParts l (3 : ℝ) ![4, 0, 0]).s ∧ (Quat.ofParts l (3 : ℝ) ![4, 0, 0]).vec ≠ 0 ∧
    |((100 : ℤ) : ℝ)| * ((1 + (2 : ℝ) ^ (-((24 : ℕ) : ℤ))) ^ 6 - 1 + (2 : ℝ) ^ (-((24 : ℕ) : ℤ))) * (|Real.log ‖(Quat.ofParts l (3 : ℝ) ![4, 0, 0]).toH‖| + 2) ≤ 1 / 2 := by
  refine ⟨by rw [Quat.s_ofParts]; exact ⟨3, 0, by norm_num, by norm_num⟩, ?_, ?_⟩
  · rw [Quat.vec_ofParts]
    intro h
    have := congrFun h 0
    norm_num at this
  · have e : ‖(Quat.ofParts l (3 : ℝ) ![4, 0, 0]).toH‖ = 5 := by
      rw [← Real.sqrt_mul_self (norm_nonneg _), ← Quaternion.normSq_eq_norm_mul_self, Quaternion.normSq_def']
      rw [show (5 : ℝ) = Real.sqrt (5 * 5) by rw [Real.sqrt_mul_self (by norm_num)]]
      congr 1
      have : (Quat.ofParts l (3 : ℝ) ![4, 0, 0]).toH = Quaternion.ofComplex ⟨3, 4⟩ := by
        apply QuaternionAlgebra.ext <;> simp [Quat.i_ofParts]
      rw [this]
      norm_num
    rw [e, abs_of_nonneg (Real.log_nonneg (by norm_num))]
    have := Real.log_le_sub_one_of_pos (show (0 : ℝ) < 5 by norm_num)
    have c : |((100 : ℤ) : ℝ)| * ((1 + (2 : ℝ) ^ (-((24 : ℕ) : ℤ))) ^ 6 - 1 + (2 : ℝ) ^ (-((24 : ℕ) : ℤ))) ≤ 1 / 12 := by norm_num
    have c0 : 0 ≤ Real.log 5 + 2 := by have := Real.log_nonneg (show (1 : ℝ) ≤ 5 by norm_num); linarith
    have := mul_le_mul_of_nonneg_right c c0
    linarith

end Mathter.Props
